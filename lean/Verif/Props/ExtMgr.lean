import Verif.Model.Ext
import Verif.Lemmas.Dict
import Verif.Props.XesTrip
import Mathlib.Data.List.Induction
import Mathlib.Data.List.Dedup
/-
C58, C59: the extension manager, for every history of registrations.
-/
namespace Opy

theorem Mgr.run_snoc (h : List Ext) (e : Ext) : Mgr.run (h ++ [e]) = (Mgr.run h).register e := by
  simp [Mgr.run, List.foldl_append]

/-- Specification: `e` is registered in the history `h` before every other extension with its URI. -/
def FirstIn (h : List Ext) (e : Ext) : Prop := ∃ pre post, h = pre ++ e :: post ∧ ∀ x ∈ pre, x.uri ≠ e.uri

/-- Specification: `e` is registered in the history `h` after every other extension with its URI. -/
def LastIn (h : List Ext) (e : Ext) : Prop := ∃ pre post, h = pre ++ e :: post ∧ ∀ x ∈ post, x.uri ≠ e.uri

/-- Specification: extensions of the history that share a URI, a name or a prefix are the same. -/
def Unambiguous (h : List Ext) : Prop :=
  ∀ a ∈ h, ∀ b ∈ h, (a.uri = b.uri ∨ a.name = b.name ∨ a.pfx = b.pfx) → a = b

theorem FirstIn.mem {h : List Ext} {e : Ext} (he : FirstIn h e) : e ∈ h := by
  obtain ⟨pre, post, rfl, _⟩ := he; simp

theorem FirstIn.snoc {h : List Ext} {e : Ext} (x : Ext) (he : FirstIn h e) : FirstIn (h ++ [x]) e := by
  obtain ⟨pre, post, rfl, hp⟩ := he
  exact ⟨pre, post ++ [x], by simp, hp⟩

/-- The list of a manager: the first registration of each URI, in order of registration. -/
theorem run_list (h : List Ext) :
    (Mgr.run h).list.Sublist h ∧ ((Mgr.run h).list.map (·.uri)).Nodup ∧
      ∀ e, e ∈ (Mgr.run h).list ↔ FirstIn h e := by
  induction h using List.reverseRecOn with
  | nil =>
    refine ⟨List.Sublist.slnil, List.nodup_nil, fun e => ⟨fun he => absurd he (by simp [Mgr.run, Mgr.empty]), ?_⟩⟩
    rintro ⟨pre, post, hh, _⟩; simp at hh
  | append_singleton h x ih =>
    obtain ⟨ih1, ih2, ih3⟩ := ih
    rw [Mgr.run_snoc]
    simp only [Mgr.register]
    by_cases hx : (Mgr.run h).list.any (extEq x) = true
    · rw [if_pos hx]
      refine ⟨ih1.trans (List.sublist_append_left _ _), ih2, fun e => ?_⟩
      rw [ih3 e]
      refine ⟨FirstIn.snoc x, ?_⟩
      rintro ⟨pre, post, hh, hp⟩
      rcases List.eq_nil_or_concat post with rfl | ⟨post', y, rfl⟩
      · have := List.append_inj' hh rfl
        obtain ⟨rfl, hxe⟩ := this
        simp only [List.cons.injEq, and_true] at hxe
        subst hxe
        rw [List.any_eq_true] at hx
        obtain ⟨y, hy, hxy⟩ := hx
        exact absurd (by simpa [extEq] using hxy : x.uri = y.uri).symm (hp y (ih1.subset hy))
      · rw [List.concat_eq_append] at hh
        have : h ++ [x] = (pre ++ e :: post') ++ [y] := by simpa using hh
        exact ⟨pre, post', (List.append_inj' this rfl).1, hp⟩
    · rw [if_neg hx]
      have hx' : ∀ y ∈ (Mgr.run h).list, x.uri ≠ y.uri := by
        intro y hy he
        exact hx (List.any_eq_true.2 ⟨y, hy, by simp [extEq, he]⟩)
      refine ⟨List.Sublist.append ih1 (List.Sublist.refl _), ?_, fun e => ?_⟩
      · rw [List.map_append, List.nodup_append]
        refine ⟨ih2, List.nodup_singleton _, ?_⟩
        intro a ha b hb
        simp only [List.map_cons, List.map_nil, List.mem_singleton] at hb
        obtain ⟨y, hy, rfl⟩ := List.mem_map.1 ha
        subst hb
        exact fun he => hx' y hy he.symm
      · rw [List.mem_append, List.mem_singleton, ih3 e]
        constructor
        · rintro (he | rfl)
          · exact he.snoc x
          · refine ⟨h, [], rfl, ?_⟩
            -- the first one with the URI of y would be in the list
            intro y hy hu
            have : ∃ z, FirstIn h z ∧ z.uri = e.uri := by
              clear ih1 ih2 ih3 hx hx'
              induction h with
              | nil => simp at hy
              | cons w h ihw =>
                by_cases hw : w.uri = e.uri
                · exact ⟨w, ⟨[], h, rfl, by simp⟩, hw⟩
                · rcases List.mem_cons.1 hy with rfl | hy
                  · exact absurd hu hw
                  · obtain ⟨z, ⟨pre, post, rfl, hp⟩, hz⟩ := ihw hy
                    refine ⟨z, ⟨w :: pre, post, rfl, ?_⟩, hz⟩
                    intro q hq
                    rcases List.mem_cons.1 hq with rfl | hq
                    · rw [hz]; exact hw
                    · exact hp q hq
            obtain ⟨z, hz, hzu⟩ := this
            exact hx' z ((ih3 z).2 hz) hzu.symm
        · rintro ⟨pre, post, hh, hp⟩
          rcases List.eq_nil_or_concat post with rfl | ⟨post', y, rfl⟩
          · have := List.append_inj' hh rfl
            simp only [List.cons.injEq, and_true] at this
            exact .inr this.2.symm
          · rw [List.concat_eq_append] at hh
            have : h ++ [x] = (pre ++ e :: post') ++ [y] := by simpa using hh
            exact .inl ⟨pre, post', (List.append_inj' this rfl).1, hp⟩

/-- The map of a manager: the last registration of each URI. -/
theorem run_map (h : List Ext) (u : Str) (e : Ext) :
    (Mgr.run h).getByUri u = some e ↔ LastIn h e ∧ e.uri = u := by
  induction h using List.reverseRecOn with
  | nil =>
    refine ⟨fun he => by simp [Mgr.run, Mgr.empty, Mgr.getByUri] at he, ?_⟩
    rintro ⟨⟨pre, post, hh, _⟩, _⟩; simp at hh
  | append_singleton h x ih =>
    rw [Mgr.run_snoc]
    simp only [Mgr.getByUri, Mgr.register] at ih ⊢
    by_cases hu : u = x.uri
    · subst hu
      rw [dget_dset_self]
      constructor
      · intro he
        simp only [Option.some.injEq] at he
        subst he
        exact ⟨⟨h, [], rfl, by simp⟩, rfl⟩
      · rintro ⟨⟨pre, post, hh, hp⟩, hu⟩
        rcases List.eq_nil_or_concat post with rfl | ⟨post', y, rfl⟩
        · have := List.append_inj' hh rfl
          simp only [List.cons.injEq, and_true] at this
          rw [this.2]
        · rw [List.concat_eq_append] at hh
          have h2 : h ++ [x] = (pre ++ e :: post') ++ [y] := by simpa using hh
          have h3 := (List.append_inj' h2 rfl).2
          simp only [List.cons.injEq, and_true] at h3
          subst h3
          exact absurd hu.symm (hp x (by simp))
    · rw [dget_dset_ne hu, ih]
      constructor
      · rintro ⟨⟨pre, post, rfl, hp⟩, he⟩
        refine ⟨⟨pre, post ++ [x], by simp, ?_⟩, he⟩
        intro y hy
        rcases List.mem_append.1 hy with hy | hy
        · exact hp y hy
        · rw [List.mem_singleton.1 hy, he]; exact fun h => hu h.symm
      · rintro ⟨⟨pre, post, hh, hp⟩, he⟩
        rcases List.eq_nil_or_concat post with rfl | ⟨post', y, rfl⟩
        · have := List.append_inj' hh rfl
          simp only [List.cons.injEq, and_true] at this
          rw [this.2] at hu
          exact absurd he.symm hu
        · rw [List.concat_eq_append] at hh
          have h2 : h ++ [x] = (pre ++ e :: post') ++ [y] := by simpa using hh
          refine ⟨⟨pre, post', (List.append_inj' h2 rfl).1, ?_⟩, he⟩
          intro q hq
          exact hp q (by simp [hq])

/-! ## C58 -/

theorem find_unique {l : List Ext} {p : Ext → Bool} {e : Ext} (he : e ∈ l) (hp : p e = true)
    (hu : ∀ x ∈ l, p x = true → x = e) : l.find? p = some e := by
  cases h : l.find? p with
  | none => exact absurd hp (by simpa using List.find?_eq_none.1 h e he)
  | some x => rw [hu x (List.mem_of_find?_eq_some h) (List.find?_some h)]

theorem mem_run_list {h : List Ext} (hu : Unambiguous h) (e : Ext) : e ∈ (Mgr.run h).list ↔ e ∈ h := by
  rw [(run_list h).2.2 e]
  refine ⟨FirstIn.mem, fun he => ?_⟩
  have hn := (List.append_of_mem he)
  -- split at the first occurrence
  have key : ∀ l : List Ext, e ∈ l → ∃ pre post, l = pre ++ e :: post ∧ e ∉ pre := by
    intro l
    induction l with
    | nil => intro h; simp at h
    | cons x l ih =>
      intro hl
      by_cases hx : x = e
      · exact ⟨[], l, by simp [hx], by simp⟩
      · rcases List.mem_cons.1 hl with rfl | hl
        · exact absurd rfl hx
        · obtain ⟨pre, post, rfl, hp⟩ := ih hl
          exact ⟨x :: pre, post, rfl, by simp [hp, Ne.symm hx]⟩
  obtain ⟨pre, post, rfl, hp⟩ := key h he
  refine ⟨pre, post, rfl, fun x hx hxu => hp ?_⟩
  have := hu x (by simp [hx]) e (by simp) (.inl hxu)
  exact this ▸ hx

/-- `get_by_uri`, `get_by_name` and `get_by_prefix` return every registered extension. -/
theorem c58_lookups {h : List Ext} (hu : Unambiguous h) {e : Ext} (he : e ∈ h) :
    (Mgr.run h).getByUri e.uri = some e ∧ (Mgr.run h).getByName e.name = some e ∧
      (Mgr.run h).getByPrefix e.pfx = some e := by
  have hm := (mem_run_list hu e).2 he
  refine ⟨?_, ?_, ?_⟩
  · have : ∃ x, (Mgr.run h).getByUri e.uri = some x := by
      have h2 : ∀ l : List Ext, e ∈ l → ∃ x, (Mgr.run l).getByUri e.uri = some x := by
        intro l
        induction l using List.reverseRecOn with
        | nil => intro h; simp at h
        | append_singleton l x ih =>
          intro hl
          rw [Mgr.run_snoc]
          simp only [Mgr.getByUri, Mgr.register] at ih ⊢
          by_cases hx : e.uri = x.uri
          · exact ⟨x, by rw [hx, dget_dset_self]⟩
          · rw [dget_dset_ne hx]
            rcases List.mem_append.1 hl with hl | hl
            · exact ih hl
            · exact absurd (by rw [List.mem_singleton.1 hl]) hx
      exact h2 h he
    obtain ⟨x, hx⟩ := this
    obtain ⟨⟨pre, post, rfl, _⟩, hxu⟩ := (run_map h e.uri x).1 hx
    rw [hx, hu x (by simp) e he (.inl hxu)]
  · refine find_unique hm (by simp) fun x hx hp => ?_
    exact hu x ((mem_run_list hu x).1 hx) e he (.inr (.inl (by simpa using hp)))
  · refine find_unique hm (by simp) fun x hx hp => ?_
    exact hu x ((mem_run_list hu x).1 hx) e he (.inr (.inr (by simpa using hp)))

/-- The eight standard extensions have different names, prefixes and URIs. -/
theorem standard_unambiguous : Unambiguous standardExts := by
  intro a ha b hb h
  have key : ∀ a ∈ standardExts, ∀ b ∈ standardExts,
      (a.uri = b.uri ∨ a.name = b.name ∨ a.pfx = b.pfx) → a = b := by decide +kernel
  exact key a ha b hb h

/-- After the standard extensions are registered, and whatever is registered later that is not confused
with them, each of the eight is found under its own URI, name and prefix. -/
theorem c58_standard :
    (∀ e ∈ standardExts, (Mgr.run standardExts).getByUri e.uri = some e ∧
      (Mgr.run standardExts).getByName e.name = some e ∧ (Mgr.run standardExts).getByPrefix e.pfx = some e) ∧
    standardExts.map (fun e => (e.name, e.pfx, e.uri)) = [
      (py!"Concept", py!"concept", py!"http://www.xes-standard.org/concept.xesext"),
      (py!"Cost", py!"cost", py!"http://www.xes-standard.org/cost.xesext"),
      (py!"Identity", py!"identity", py!"http://www.xes-standard.org/identity.xesext"),
      (py!"Lifecycle", py!"lifecycle", py!"http://www.xes-standard.org/lifecycle.xesext"),
      (py!"Micro", py!"micro", py!"http://www.xes-standard.org/micro.xesext"),
      (py!"Organizational", py!"org", py!"http://www.xes-standard.org/org.xesext"),
      (py!"Semantic", py!"semantic", py!"http://www.xes-standard.org/semantic.xesext"),
      (py!"Time", py!"time", py!"http://www.xes-standard.org/time.xesext")] ∧
    ∀ later : List Ext, Unambiguous (standardExts ++ later) → ∀ e ∈ standardExts,
      (Mgr.run (standardExts ++ later)).getByPrefix e.pfx = some e :=
  ⟨fun _ he => c58_lookups standard_unambiguous he, by decide +kernel,
    fun _ hu _ he => (c58_lookups hu (by simp [he])).2.2⟩

/-- Lookups never invent or mix up extensions: what is found was registered and has the URI, name or
prefix asked for.  No hypothesis on the history. -/
theorem c58_sound (h : List Ext) (t : Str) (e : Ext) :
    ((Mgr.run h).getByUri t = some e → e ∈ h ∧ e.uri = t) ∧
    ((Mgr.run h).getByName t = some e → e ∈ h ∧ e.name = t) ∧
    ((Mgr.run h).getByPrefix t = some e → e ∈ h ∧ e.pfx = t) := by
  refine ⟨fun he => ?_, fun he => ?_, fun he => ?_⟩
  · obtain ⟨⟨pre, post, rfl, _⟩, hu⟩ := (run_map h t e).1 he
    exact ⟨by simp, hu⟩
  · exact ⟨(run_list h).1.subset (List.mem_of_find?_eq_some he), by simpa using List.find?_some he⟩
  · exact ⟨(run_list h).1.subset (List.mem_of_find?_eq_some he), by simpa using List.find?_some he⟩

theorem indexFrom_spec (e : Ext) : ∀ (l : List Ext) (i : Nat),
    (indexFrom e i l = -1 ∧ ∀ x ∈ l, x.uri ≠ e.uri) ∨
    ∃ pre x post, l = pre ++ x :: post ∧ x.uri = e.uri ∧ (∀ y ∈ pre, y.uri ≠ e.uri) ∧
      indexFrom e i l = ((i + pre.length : Nat) : Int)
  | [], i => .inl ⟨rfl, by simp⟩
  | x :: l, i => by
    simp only [indexFrom]
    by_cases hx : x.uri = e.uri
    · refine .inr ⟨[], x, l, rfl, hx, by simp, ?_⟩
      rw [if_pos (by simp [extEq, hx])]; simp
    · rw [if_neg (by simp [extEq, hx])]
      rcases indexFrom_spec e l (i + 1) with ⟨h1, h2⟩ | ⟨pre, y, post, rfl, hy, hp, hi⟩
      · exact .inl ⟨h1, by simpa [hx] using h2⟩
      · refine .inr ⟨x :: pre, y, post, rfl, hy, by simpa [hx] using hp, ?_⟩
        rw [hi]; simp only [List.length_cons]; congr 1; omega

/-- Positions: `get_index` is the number of different extensions registered before the first
registration of the extension, and `get_by_index` inverts it. -/
theorem c58_index {pre post : List Ext} {e : Ext} (hu : Unambiguous (pre ++ e :: post)) (he : e ∉ pre) :
    (Mgr.run (pre ++ e :: post)).getIndex e = (pre.dedup.length : Int) ∧
      (Mgr.run (pre ++ e :: post)).getByIndex (pre.dedup.length : Int) = some e := by
  have hpre : Unambiguous pre := fun a ha b hb => hu a (by simp [ha]) b (by simp [hb])
  -- the list starts with the list for `pre` followed by `e`
  have grow : ∀ (l : List Ext) (post : List Ext), (Mgr.run l).list <+: (Mgr.run (l ++ post)).list := by
    intro l post
    induction post using List.reverseRecOn with
    | nil => simp
    | append_singleton post x ih =>
      rw [← List.append_assoc, Mgr.run_snoc]
      simp only [Mgr.register]
      split
      · exact ih
      · exact ih.trans (List.prefix_append _ _)
  have hlen : (Mgr.run pre).list.length = pre.dedup.length := by
    have hn : (Mgr.run pre).list.Nodup := (run_list pre).2.1.of_map
    have hp : (Mgr.run pre).list.Perm pre.dedup := by
      rw [List.perm_ext_iff_of_nodup hn (List.nodup_dedup _)]
      intro a
      rw [mem_run_list hpre, List.mem_dedup]
    exact hp.length_eq
  have hnot : ∀ y ∈ (Mgr.run pre).list, y.uri ≠ e.uri := by
    intro y hy hye
    have hy' := (mem_run_list hpre y).1 hy
    exact he (hu y (by simp [hy']) e (by simp) (.inl hye) ▸ hy')
  have hstep : (Mgr.run (pre ++ [e])).list = (Mgr.run pre).list ++ [e] := by
    rw [Mgr.run_snoc]
    simp only [Mgr.register]
    rw [if_neg]
    intro h
    obtain ⟨y, hy, hxy⟩ := List.any_eq_true.1 h
    exact hnot y hy (by simpa [extEq] using hxy : e.uri = y.uri).symm
  obtain ⟨rest, hrest⟩ := grow (pre ++ [e]) post
  rw [hstep, List.append_assoc, List.append_assoc, List.singleton_append] at hrest
  simp only [List.singleton_append] at hrest
  refine ⟨?_, ?_⟩
  · simp only [Mgr.getIndex, ← hrest]
    have idx : ∀ (l : List Ext) (i : Nat), (∀ y ∈ l, y.uri ≠ e.uri) →
        indexFrom e i (l ++ e :: rest) = ((i + l.length : Nat) : Int) := by
      intro l
      induction l with
      | nil => intro i _; simp [indexFrom, extEq]
      | cons x l ih =>
        intro i hl
        rw [List.cons_append]
        simp only [indexFrom]
        rw [if_neg (by simpa [extEq] using hl x (by simp)), ih (i + 1) (fun y hy => hl y (by simp [hy]))]
        simp only [List.length_cons]; congr 1; omega
    rw [idx _ 0 hnot, hlen]; simp
  · simp only [Mgr.getByIndex, ← hrest, List.length_append, List.length_cons, hlen]
    rw [if_pos ⟨by omega, by push_cast; omega⟩]
    simp [← hlen]

/-- Unknown URIs, names, prefixes and extensions, and positions that are not the position of an
extension, are answered by None or -1.  No hypothesis on the history. -/
theorem c58_unknown (h : List Ext) :
    (∀ u, (∀ x ∈ h, x.uri ≠ u) → (Mgr.run h).getByUri u = none) ∧
    (∀ n, (∀ x ∈ h, x.name ≠ n) → (Mgr.run h).getByName n = none) ∧
    (∀ p, (∀ x ∈ h, x.pfx ≠ p) → (Mgr.run h).getByPrefix p = none) ∧
    (∀ e : Ext, (∀ x ∈ h, x.uri ≠ e.uri) → (Mgr.run h).getIndex e = -1) ∧
    (∀ i e, (Mgr.run h).getByIndex i = some e → (Mgr.run h).getIndex e = i ∧ e ∈ h) := by
  have none_of : ∀ {o : Option Ext}, (∀ e, o ≠ some e) → o = none := by
    intro o ho; cases o with
    | none => rfl
    | some e => exact absurd rfl (ho e)
  refine ⟨fun u hu => none_of fun e he => ?_, fun n hn => none_of fun e he => ?_,
    fun p hp => none_of fun e he => ?_, fun e he => ?_, fun i e hi => ?_⟩
  · have := (c58_sound h u e).1 he; exact hu e this.1 this.2
  · have := (c58_sound h n e).2.1 he; exact hn e this.1 this.2
  · have := (c58_sound h p e).2.2 he; exact hp e this.1 this.2
  · rcases indexFrom_spec e (Mgr.run h).list 0 with ⟨h1, _⟩ | ⟨pre, x, post, hl, hx, _, _⟩
    · exact h1
    · exact absurd hx (he x ((run_list h).1.subset (by rw [hl]; simp)))
  · simp only [Mgr.getByIndex] at hi
    split at hi
    · next hr =>
      have hmem := List.mem_of_getElem? hi
      refine ⟨?_, (run_list h).1.subset hmem⟩
      have hn := (run_list h).2.1
      rcases indexFrom_spec e (Mgr.run h).list 0 with ⟨_, h2⟩ | ⟨pre, x, post, hl, hx, _, hidx⟩
      · exact absurd rfl (h2 e hmem)
      · have h1 : ((Mgr.run h).list.map (·.uri))[pre.length]? = some e.uri := by rw [hl]; simp [hx]
        have h2 : ((Mgr.run h).list.map (·.uri))[i.toNat]? = some e.uri := by rw [List.getElem?_map, hi]; rfl
        have hlt : pre.length < ((Mgr.run h).list.map (·.uri)).length := by
          rw [hl]; simp
        have h3 := (List.getElem?_inj hlt hn).1 (h1.trans h2.symm)
        show indexFrom e 0 (Mgr.run h).list = i
        rw [hidx, h3]; omega
    · simp at hi

/-- Registering the same extension again changes nothing. -/
theorem c58_again (h : List Ext) (e : Ext) :
    Mgr.run (h ++ [e] ++ [e]) = Mgr.run (h ++ [e]) := by
  rw [Mgr.run_snoc, Mgr.run_snoc]
  have h1 : ∀ d : List (Str × Ext), dset e.uri e (dset e.uri e d) = dset e.uri e d := by
    intro d
    induction d with
    | nil => simp [dset]
    | cons p r ih =>
      obtain ⟨k, v⟩ := p
      simp only [dset]
      split
      · next hk => simp [dset, hk]
      · next hk => simp [dset, hk, ih]
  have h2 : ((Mgr.run h).register e).list.any (extEq e) = true := by
    simp only [Mgr.register]
    split
    · assumption
    · simp [extEq]
  have h3 : ∀ m : Mgr, m.list.any (extEq e) = true → m.register e = ⟨dset e.uri e m.map, m.list⟩ := by
    intro m hm; simp only [Mgr.register]; rw [if_pos hm]
  rw [h3 _ h2]
  simp only [Mgr.register, h1]

/-- The hypothesis of C58 holds for the standard extensions, and for them followed by another. -/
example : Unambiguous (standardExts ++ [⟨py!"Mine", py!"mine", py!"http://x/mine.xesext"⟩]) := by
  unfold Unambiguous; decide
example : (Mgr.run standardExts).getIndex orgExt = 5 := by decide
example : (Mgr.run standardExts).getByPrefix py!"org" = some orgExt := by decide

/-- The manager seen by the parsers finds a prefix only for an extension with that prefix: the
hypothesis of the XES round trip (C40) holds for every history. -/
theorem c58_lawful (h : List Ext) (urlParse : Str → Except PyErr Str) : LawfulMgr ((Mgr.run h).view urlParse) :=
  fun p e he => ((c58_sound h p e).2.2 he).2

/-! ## C59 -/

/-- What registering an extension with an already known URI does, for every history: `get_by_uri`
returns the new extension, and every other lookup is as before. -/
theorem c59_reregister_partial (h : List Ext) (e : Ext) (hk : ∃ x ∈ h, x.uri = e.uri) :
    (Mgr.run (h ++ [e])).getByUri e.uri = some e ∧
    (∀ u, u ≠ e.uri → (Mgr.run (h ++ [e])).getByUri u = (Mgr.run h).getByUri u) ∧
    (∀ n, (Mgr.run (h ++ [e])).getByName n = (Mgr.run h).getByName n) ∧
    (∀ p, (Mgr.run (h ++ [e])).getByPrefix p = (Mgr.run h).getByPrefix p) ∧
    (∀ i, (Mgr.run (h ++ [e])).getByIndex i = (Mgr.run h).getByIndex i) ∧
    (∀ x, (Mgr.run (h ++ [e])).getIndex x = (Mgr.run h).getIndex x) := by
  have hany : (Mgr.run h).list.any (extEq e) = true := by
    obtain ⟨x, hx, hxe⟩ := hk
    obtain ⟨x0, hx0⟩ : ∃ z, FirstIn h z ∧ z.uri = e.uri := by
      induction h with
      | nil => simp at hx
      | cons w h ih =>
        by_cases hw : w.uri = e.uri
        · exact ⟨w, ⟨[], h, rfl, by simp⟩, hw⟩
        · rcases List.mem_cons.1 hx with rfl | hx
          · exact absurd hxe hw
          · obtain ⟨z, ⟨pre, post, rfl, hp⟩, hz⟩ := ih hx
            refine ⟨z, ⟨w :: pre, post, rfl, ?_⟩, hz⟩
            intro q hq
            rcases List.mem_cons.1 hq with rfl | hq
            · rw [hz]; exact hw
            · exact hp q hq
    exact List.any_eq_true.2 ⟨x0, ((run_list h).2.2 x0).2 hx0.1, by simp [extEq, hx0.2]⟩
  have hl : (Mgr.run (h ++ [e])).list = (Mgr.run h).list := by
    rw [Mgr.run_snoc]; simp only [Mgr.register]; rw [if_pos hany]
  refine ⟨?_, fun u hu => ?_, fun n => ?_, fun p => ?_, fun i => ?_, fun x => ?_⟩
  · rw [Mgr.run_snoc]; exact dget_dset_self _ _ _
  · rw [Mgr.run_snoc]; exact dget_dset_ne hu _ _
  · simp only [Mgr.getByName, hl]
  · simp only [Mgr.getByPrefix, hl]
  · simp only [Mgr.getByIndex, hl]
  · simp only [Mgr.getIndex, hl]

/-- C59 is violated: an extension registered under a known URI is never found by its name, its prefix
or a position, if it differs from all the extensions that were registered before. -/
theorem c59_refuted (h : List Ext) (e : Ext) (hk : ∃ x ∈ h, x.uri = e.uri) (hn : e ∉ h) :
    (Mgr.run (h ++ [e])).getByName e.name ≠ some e ∧ (Mgr.run (h ++ [e])).getByPrefix e.pfx ≠ some e ∧
      ∀ i, (Mgr.run (h ++ [e])).getByIndex i ≠ some e := by
  obtain ⟨_, _, h1, h2, h3, _⟩ := c59_reregister_partial h e hk
  refine ⟨fun he => ?_, fun he => ?_, fun i he => ?_⟩
  · rw [h1] at he; exact hn ((c58_sound h _ e).2.1 he).1
  · rw [h2] at he; exact hn ((c58_sound h _ e).2.2 he).1
  · rw [h3] at he; exact hn ((c58_unknown h).2.2.2.2 i e he).2

/-- A second concept extension: found by URI only. -/
example : (Mgr.run (standardExts ++ [⟨py!"New", py!"new", conceptExt.uri⟩])).getByUri conceptExt.uri
      = some ⟨py!"New", py!"new", conceptExt.uri⟩ ∧
    (Mgr.run (standardExts ++ [⟨py!"New", py!"new", conceptExt.uri⟩])).getByName py!"New" = none ∧
    (Mgr.run (standardExts ++ [⟨py!"New", py!"new", conceptExt.uri⟩])).getByIndex 0 = some conceptExt := by decide

end Opy
