import Verif.Props.Util
/-
C163: what the attribute name maps contain and how they are printed.
-/
set_option linter.unusedSectionVars false
namespace Opy

/-! ## Specification -/

/-- The names of the mappings after some calls: the standard one first, then as they were first mentioned. -/
def mapNames (calls : List MapCall) : List Str := (py!"EN" :: calls.map MapCall.name).eraseDups

/-- The key that a call registers an alias for in the mapping `n`. -/
def MapCall.keyIn (n : Str) : MapCall → Option Str
  | .register n' (.str k) (.str _) => if n' = n then some k else none
  | .register n' (.attrib k) (.str _) => if n' = n then some k else none
  | _ => none

/-- The keys of a mapping after some calls, as they were first registered. -/
def mapKeys (calls : List MapCall) (n : Str) : List Str := (calls.filterMap (MapCall.keyIn n)).eraseDups

/-- A printed mapping: a line for each key, with its last alias. -/
def mapShown (calls : List MapCall) (n : Str) : Str :=
  py!"Attribute name map: " ++ n ++ ((mapKeys calls n).map fun k => py!"\n" ++ k ++ py!" -> " ++ (lastAlias calls n k).getD []).flatten

/-! ## Order -/

/-- The order of names and keys. -/
structure GOrd (calls : List MapCall) (g : GlobalMap) : Prop where
  names : dkeys g.mappings = mapNames calls
  keys : ∀ n r, dget n g.mappings = some r → ∃ m, g.maps[r]? = some m ∧ dkeys m.mapping = mapKeys calls n

theorem eraseDups_snoc (l : List Str) (a : Str) : (l ++ [a]).eraseDups = if a ∈ l then l.eraseDups else l.eraseDups ++ [a] := by
  rw [List.eraseDups_append]
  by_cases h : a ∈ l
  · simp [List.removeAll, h]
  · simp [List.removeAll, h, List.eraseDups_cons]

theorem eraseDups_nodup (l : List Str) : l.eraseDups.Nodup := by
  induction l using List.reverseRecOn with
  | nil => simp
  | append_singleton l a ih =>
    rw [eraseDups_snoc]
    split
    · exact ih
    · rename_i h
      rw [List.nodup_append]
      refine ⟨ih, by simp, fun x hx y hy => ?_⟩
      rintro rfl
      rw [List.mem_singleton] at hy
      subst hy
      exact h (List.mem_eraseDups.1 hx)

theorem mapNames_snoc (calls : List MapCall) (c : MapCall) :
    (KnownMapping calls c.name → mapNames (calls ++ [c]) = mapNames calls) ∧ (¬ KnownMapping calls c.name → mapNames (calls ++ [c]) = mapNames calls ++ [c.name]) := by
  have : KnownMapping calls c.name ↔ c.name ∈ py!"EN" :: calls.map MapCall.name := by
    simp only [KnownMapping, List.mem_cons, List.mem_map]
  simp only [mapNames, List.map_append, List.map_cons, List.map_nil, ← List.cons_append, eraseDups_snoc]
  exact ⟨fun h => by rw [if_pos (this.1 h)], fun h => by rw [if_neg fun h' => h (this.2 h')]⟩

theorem mapKeys_get (calls : List MapCall) (n n' : Str) : mapKeys (calls ++ [.get n]) n' = mapKeys calls n' := by
  have : MapCall.keyIn n' (.get n) = none := rfl
  simp [mapKeys, this]

theorem mapKeys_unknown {calls : List MapCall} {n : Str} (h : ¬ KnownMapping calls n) : mapKeys calls n = [] := by
  have : calls.filterMap (MapCall.keyIn n) = [] := by
    rw [List.filterMap_eq_nil_iff]
    intro c hc
    have hn : c.name ≠ n := fun he => h (Or.inr ⟨c, hc, he⟩)
    cases c with
    | get _ => rfl
    | register n' a s =>
      have hn' : n' ≠ n := hn
      cases a <;> cases s <;> simp [MapCall.keyIn, hn']
  rw [mapKeys, this]
  rfl

theorem getMapping_ord {calls : List MapCall} {g : GlobalMap} (hi : GInv calls g) (ho : GOrd calls g) (n : Str) :
    GOrd (calls ++ [.get n]) (g.getMapping n).2 := by
  have hk := mapKeys_get calls n
  have hn := mapNames_snoc calls (.get n)
  have hname : (MapCall.get n).name = n := rfl
  rw [hname] at hn
  unfold GlobalMap.getMapping
  cases hd : dget n g.mappings with
  | some r =>
    have hkn : KnownMapping calls n := (hi.known n).1 (dget_isSome.1 ⟨r, hd⟩)
    refine ⟨by rw [hn.1 hkn]; exact ho.names, fun n' r' h => ?_⟩
    rw [hk]
    exact ho.keys n' r' h
  | none =>
    have hkn : ¬ KnownMapping calls n := by
      rw [← hi.known]
      exact dget_eq_none.1 hd
    refine ⟨?_, fun n' r' h => ?_⟩
    · rw [hn.2 hkn]
      simp only [dset_eq_append _ (dget_eq_none.1 hd), dkeys, List.map_append, List.map_cons, List.map_nil]
      rw [← ho.names]
      rfl
    · rw [hk]
      simp only [dget_dset] at h
      split at h
      · rename_i he
        cases h
        subst he
        exact ⟨⟨n', []⟩, by simp, (mapKeys_unknown hkn).symm⟩
      · obtain ⟨m, h1, h2⟩ := ho.keys n' r' h
        have hlt : r' < g.maps.length := (List.getElem?_eq_some_iff.1 h1).1
        exact ⟨m, by rw [List.getElem?_append_left hlt]; exact h1, h2⟩

theorem mapKeys_snoc (calls : List MapCall) (c : MapCall) (n : Str) : mapKeys (calls ++ [c]) n =
    match c.keyIn n with
    | some k => if k ∈ mapKeys calls n then mapKeys calls n else mapKeys calls n ++ [k]
    | none => mapKeys calls n := by
  simp only [mapKeys, List.filterMap_append, List.filterMap_cons, List.filterMap_nil]
  cases c.keyIn n with
  | none => simp
  | some k =>
    simp only [eraseDups_snoc, List.mem_eraseDups]

theorem globalMap_ord (calls : List MapCall) : GOrd calls (GlobalMap.run calls) := by
  induction calls using List.reverseRecOn with
  | nil =>
    refine ⟨by decide, fun n r h => ?_⟩
    simp only [GlobalMap.run, GlobalMap.init, List.foldl_nil, dget] at h
    split at h
    · cases h
      exact ⟨⟨py!"EN", []⟩, rfl, rfl⟩
    · cases h
  | append_singleton cs c ih =>
    have hrun : GlobalMap.run (cs ++ [c]) = (GlobalMap.run cs).step c := by simp [GlobalMap.run]
    rw [hrun]
    have hi := globalMap_inv cs
    cases c with
    | get n => exact getMapping_ord hi ih n
    | register n a s =>
      have h0 := getMapping_ord hi ih n
      obtain ⟨h1, h2⟩ := getMapping_inv hi n
      simp only [GlobalMap.step, GlobalMap.register]
      generalize ((GlobalMap.run cs).getMapping n).2 = g at h0 h1 h2
      generalize ((GlobalMap.run cs).getMapping n).1 = r at h2
      have e1 : mapNames (cs ++ [.register n a s]) = mapNames (cs ++ [.get n]) := by
        simp only [mapNames, List.map_append, List.map_cons, List.map_nil, MapCall.name]
      have e2 := mapKeys_get cs n
      refine ⟨by rw [e1]; exact h0.names, fun n' r' h => ?_⟩
      obtain ⟨m, k1, k2⟩ := h0.keys n' r' h
      rw [e2] at k2
      rw [mapKeys_snoc]
      by_cases hn : n = n'
      · subst hn
        have hr : r' = r := Option.some.inj (h.symm.trans h2)
        subst hr
        refine ⟨m.register a s, by simp [k1], ?_⟩
        cases s with
        | other => cases a <;> exact k2
        | str al =>
          cases a with
          | other => exact k2
          | str k => simp only [NameMap.register, MapCall.keyIn, if_true, dkeys_dset, k2]
          | attrib k => simp only [NameMap.register, MapCall.keyIn, if_true, dkeys_dset, k2]
      · have hr : r' ≠ r := by
          rintro rfl
          obtain ⟨m1, x1, x2, _⟩ := h1.maps _ _ h
          obtain ⟨m2, y1, y2, _⟩ := h1.maps _ _ h2
          rw [x1] at y1
          cases y1
          exact hn (y2.symm.trans x2)
        refine ⟨m, by simp [Ne.symm hr, k1], ?_⟩
        have : MapCall.keyIn n' (.register n a s) = none := by cases a <;> cases s <;> simp [MapCall.keyIn, hn]
        rw [this]
        exact k2

/-! ## C163 -/

/-- C163: the mappings that there are, in their order. -/
theorem c163_names (calls : List MapCall) : (GlobalMap.run calls).availableNames = mapNames calls := (globalMap_ord calls).names

/-- C163: what get_mapping returns: the mapping of that name with the aliases registered for it so far.
For a new name it is empty; asking changes nothing else. -/
theorem c163_mapping (calls : List MapCall) (n : Str) :
    ∃ m, ((GlobalMap.run calls).getMapping n).2.maps[((GlobalMap.run calls).getMapping n).1]? = some m ∧ m.name = n ∧ dkeys m.mapping = mapKeys calls n ∧
      ∀ (a : AttrArg) (k : Str), a.key = some k → m.map a = lastAlias calls n k := by
  have hi := globalMap_inv calls
  obtain ⟨h1, h2⟩ := getMapping_inv hi n
  have h3 := getMapping_ord hi (globalMap_ord calls) n
  obtain ⟨m, a1, a2, a3⟩ := h1.maps n _ h2
  obtain ⟨m', b1, b2⟩ := h3.keys n _ h2
  rw [a1] at b1
  cases b1
  refine ⟨m, a1, a2, ?_, fun a k hk => ?_⟩
  · rw [b2, mapKeys_get]
  · have : lastAlias (calls ++ [.get n]) n k = lastAlias calls n k := by simp [lastAlias, MapCall.alias]
    rw [← this, ← a3]
    cases a with
    | other => cases hk
    | str => cases hk; rfl
    | attrib => cases hk; rfl

/-- C163: the printed global map: all mappings in order, each with its keys in order and the last alias of each. -/
theorem c163_text (calls : List MapCall) : (GlobalMap.run calls).text =
    py!"Global attribute name map.\n\nContained maps:\n\n" ++ ((mapNames calls).map fun n => mapShown calls n ++ py!"\n\n").flatten := by
  have hi := globalMap_inv calls
  have ho := globalMap_ord calls
  generalize GlobalMap.run calls = g at hi ho
  simp only [GlobalMap.text]
  congr 2
  rw [← ho.names]
  simp only [dvals, dkeys, List.map_map]
  refine List.map_congr_left fun p hp => ?_
  have hnd : (dkeys g.mappings).Nodup := by
    rw [ho.names]
    exact eraseDups_nodup _
  have hd := mem_dget hnd (show (p.1, p.2) ∈ g.mappings from hp)
  obtain ⟨m, a1, a2, a3⟩ := hi.maps _ _ hd
  obtain ⟨m', b1, b2⟩ := ho.keys _ _ hd
  rw [a1] at b1
  cases b1
  simp only [Function.comp, a1, Option.map_some, Option.getD_some, NameMap.text, mapShown, a2, b2, a3]

/-! ## Example -/

def sayings : List MapCall := [.register py!"DE" (.str py!"concept:name") (.str py!"Nahme"), .register py!"EN" (.attrib py!"concept:name") (.str py!"Name"),
  .register py!"DE" (.str py!"org:role") (.str py!"Rolle"), .get py!"FR", .register py!"DE" (.str py!"concept:name") (.str py!"Name"), .register py!"NL" .other (.str py!"x")]

example : mapNames sayings = [py!"EN", py!"DE", py!"FR", py!"NL"] ∧ mapKeys sayings py!"DE" = [py!"concept:name", py!"org:role"] := by decide +kernel

example : (GlobalMap.run sayings).text = py!"Global attribute name map.\n\nContained maps:\n\nAttribute name map: EN\nconcept:name -> Name\n\nAttribute name map: DE\nconcept:name -> Name\norg:role -> Rolle\n\nAttribute name map: FR\n\nAttribute name map: NL\n\n" := by
  decide +kernel

end Opy
