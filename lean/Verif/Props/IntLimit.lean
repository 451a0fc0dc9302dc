import Verif.Model.IntLimit
import Verif.Props.XmlText
import Verif.Props.XesRead
/-
C179: integers that are longer than Python converts.
-/
set_option linter.unusedSectionVars false
namespace Opy

/-! ## Specification -/

/-- The integer has at most `lim` digits; 0 stands for no limit. -/
def SmallInt (lim : Nat) (z : Int) : Prop := lim = 0 ∨ z.natAbs < 10 ^ lim

/-- The text has at most `lim` digits (of whatever script). -/
def ShortText (lim : Nat) (s : Str) : Prop := lim = 0 ∨ s.countP (fun c => (digitVal? c).isSome) ≤ lim

section
variable {F : Type} [PyFloat F]

/-- Only integers can be too long. -/
def SmallVal (lim : Nat) : PyVal F → Prop
  | .int z => SmallInt lim z
  | _ => True

mutual
/-- The integers of an attribute and of what is written inside it. -/
def SmallAttr (lim : Nat) : Attr F → Prop
  | .mk k _ _ v m c => if k.isCollection = true then SmallAttrs lim c else SmallVal lim v ∧ SmallMap lim m
/-- The same for a list. -/
def SmallAttrs (lim : Nat) : List (Attr F) → Prop
  | [] => True
  | a :: as => SmallAttr lim a ∧ SmallAttrs lim as
/-- The same for a map. -/
def SmallMap (lim : Nat) : List (Str × Attr F) → Prop
  | [] => True
  | (_, a) :: as => SmallAttr lim a ∧ SmallMap lim as
end

/-- The integers of a log that are written. -/
structure SmallLog (lim : Nat) (L : Log F) : Prop where
  attrs : SmallMap lim L.attrs
  globalTrace : SmallAttrs lim L.globalTrace
  globalEvent : SmallAttrs lim L.globalEvent
  traces : ∀ t ∈ L.traces, SmallMap lim t.attrs ∧ ∀ e ∈ t.events, SmallMap lim e.attrs

/-- As `FileHolds`, with the limit. -/
def FileHoldsLim (lim : Nat) (mgr : ExtMgr) (modern : Bool) (L : Log F) (c : Content F) : Prop :=
  ∃ text, saveXesLim lim modern L = .ok text ∧ ∀ (rnd : Nat → Uuid) (given : Option (Factory F)) (h : Heap F),
    ∃ l h', loadXesLim lim given (stdFactory F rnd) mgr h text = .ok (some l, h') ∧
      DenLog h' h.size h'.size c l ∧ Keeps h.size h h'

end

mutual
/-- Every element of a document satisfies a condition on its name and attributes. -/
def EveryElem (P : Str → List (Str × Str) → Prop) : Xml → Prop
  | .elem t as ks => P t as ∧ EveryElems P ks
/-- The same for a list. -/
def EveryElems (P : Str → List (Str × Str) → Prop) : List Xml → Prop
  | [] => True
  | x :: xs => EveryElem P x ∧ EveryElems P xs
end

/-! ## Numbers -/

theorem overLimit_iff {lim n : Nat} : overLimit lim n = true ↔ ¬ (lim = 0 ∨ n ≤ lim) := by
  simp only [overLimit, Bool.and_eq_true, decide_eq_true_eq]
  omega

theorem natStr_digits_le (n k : Nat) (hk : 0 < k) : (natStr n).length ≤ k ↔ n < 10 ^ k := by
  induction n using Nat.strongRecOn generalizing k with
  | ind n ih =>
    by_cases h : n < 10
    · rw [natStr_lt h]
      have : 10 ^ 1 ≤ 10 ^ k := Nat.pow_le_pow_right (by decide) hk
      simp only [List.length_singleton]
      omega
    · rw [natStr_ge (by omega), List.length_append, List.length_singleton]
      cases k with
      | zero => omega
      | succ k =>
        rw [Nat.add_le_add_iff_right, Nat.pow_succ]
        by_cases hz : k = 0
        · subst hz
          have : (natStr (n / 10)) ≠ [] := by
            obtain ⟨ds, h0, _, h2, _⟩ := natStr_digits (n / 10)
            rw [h2]
            simpa using h0
          have := List.length_pos_iff.2 this
          omega
        · rw [ih (n / 10) (by omega) k (by omega)]
          omega

theorem intStrLim_spec (lim : Nat) (z : Int) : (SmallInt lim z → intStrLim lim z = .ok (intStr z)) ∧ (¬ SmallInt lim z → intStrLim lim z = .error .valueError) := by
  have key : SmallInt lim z ↔ (lim = 0 ∨ (natStr z.natAbs).length ≤ lim) := by
    unfold SmallInt
    by_cases h : lim = 0
    · simp [h]
    · rw [natStr_digits_le _ _ (by omega)]
  unfold intStrLim
  constructor
  · intro h
    rw [if_neg fun k => overLimit_iff.1 k (key.1 h)]
  · intro h
    rw [if_pos (overLimit_iff.2 fun k => h (key.2 k))]

/-! ## Saving -/

section
variable {F : Type} [PyFloat F]

theorem simpleStr_small {lim : Nat} {k : Kind} (hk : ¬ k.isCollection = true) {v : PyVal F} (h : SmallVal lim v) (key : Str) (e : Option Ext) (m : AttrMap F) (c : List (Attr F)) :
    simpleStrLim lim k v = attrStr (.mk k key e v m c) := by
  cases k <;> first | exact absurd rfl hk | skip
  all_goals cases v <;> first | rfl | (simp only [simpleStrLim, attrStr, pyStr, (intStrLim_spec lim _).1 h]; done) | (simp only [simpleStrLim, attrStr, pyStr, (intStrLim_spec lim _).1 h]; rfl)

theorem simpleStr_big {lim : Nat} {k : Kind} (hk : ¬ k.isCollection = true) {v : PyVal F} (h : ¬ SmallVal lim v) : ∃ e, simpleStrLim lim k v = .error e := by
  cases v with
  | int z =>
    have := (intStrLim_spec lim z).2 h
    cases k <;> first | exact absurd rfl hk | exact ⟨_, rfl⟩ | exact ⟨_, this⟩ | (simp only [simpleStrLim, this]; exact ⟨_, rfl⟩)
  | _ => exact absurd trivial h

theorem simpleStr_typed {lim : Nat} {k : Kind} {v : PyVal F} (hv : GoodVal k v) {e : PyErr} (h : simpleStrLim lim k v = .error e) : e = .valueError := by
  have key : ∀ {z}, intStrLim lim z = .error e → e = .valueError := by
    intro z h
    by_cases hz : SmallInt lim z
    · rw [(intStrLim_spec lim z).1 hz] at h
      cases h
    · rw [(intStrLim_spec lim z).2 hz] at h
      cases h
      rfl
  cases k <;> cases v <;> first | exact absurd hv id | (simp only [simpleStrLim] at h; first | (cases h; done) | exact key h)

mutual
theorem attrXml_small {lim : Nat} : ∀ {a : Attr F}, SmallAttr lim a → attrXmlLim lim a = attrXml a
  | .mk k key e v m c, h => by
    rw [SmallAttr] at h
    rw [attrXmlLim, attrXml]
    by_cases hk : k.isCollection = true
    · rw [if_pos hk] at h
      rw [if_pos hk, if_pos hk, attrsXml_small h]
    · rw [if_neg hk] at h
      rw [if_neg hk, if_neg hk, simpleStr_small hk h.1 key e m c, mapXml_small h.2]
theorem attrsXml_small {lim : Nat} : ∀ {as : List (Attr F)}, SmallAttrs lim as → attrsXmlLim lim as = attrsXml as
  | [], _ => by rw [attrsXmlLim, attrsXml]
  | a :: as, h => by rw [attrsXmlLim, attrsXml, attrXml_small h.1, attrsXml_small h.2]
theorem mapXml_small {lim : Nat} : ∀ {as : List (Str × Attr F)}, SmallMap lim as → mapXmlLim lim as = mapXml as
  | [], _ => by rw [mapXmlLim, mapXml]
  | (_, a) :: as, h => by rw [mapXmlLim, mapXml, attrXml_small h.1, mapXml_small h.2]
end

mutual
theorem attrXml_fits {lim : Nat} : ∀ {a : Attr F} {x : Xml}, attrXmlLim lim a = .ok x → SmallAttr lim a
  | .mk k key e v m c, x, h => by
    rw [attrXmlLim] at h
    rw [SmallAttr]
    by_cases hk : k.isCollection = true
    · rw [if_pos hk] at h ⊢
      obtain ⟨ks, h1, _⟩ := bind_ok.1 h
      exact attrsXml_fits h1
    · rw [if_neg hk] at h ⊢
      obtain ⟨s, h1, h⟩ := bind_ok.1 h
      obtain ⟨ks, h2, _⟩ := bind_ok.1 h
      refine ⟨Classical.byContradiction fun hn => ?_, mapXml_fits h2⟩
      obtain ⟨e, he⟩ := simpleStr_big hk hn
      rw [he] at h1
      cases h1
theorem attrsXml_fits {lim : Nat} : ∀ {as : List (Attr F)} {xs : List Xml}, attrsXmlLim lim as = .ok xs → SmallAttrs lim as
  | [], _, _ => trivial
  | a :: as, xs, h => by
    rw [attrsXmlLim] at h
    obtain ⟨x, h1, h⟩ := bind_ok.1 h
    obtain ⟨ys, h2, _⟩ := bind_ok.1 h
    exact ⟨attrXml_fits h1, attrsXml_fits h2⟩
theorem mapXml_fits {lim : Nat} : ∀ {as : List (Str × Attr F)} {xs : List Xml}, mapXmlLim lim as = .ok xs → SmallMap lim as
  | [], _, _ => trivial
  | (_, a) :: as, xs, h => by
    rw [mapXmlLim] at h
    obtain ⟨x, h1, h⟩ := bind_ok.1 h
    obtain ⟨ys, h2, _⟩ := bind_ok.1 h
    exact ⟨attrXml_fits h1, mapXml_fits h2⟩
end

theorem bind_err {α β : Type} {x : Except PyErr α} {f : α → Except PyErr β} {e : PyErr} (h : (x >>= f) = .error e) :
    x = .error e ∨ ∃ a, x = .ok a ∧ f a = .error e := by
  cases x with
  | error e' =>
    cases h
    exact Or.inl rfl
  | ok a => exact Or.inr ⟨a, rfl, h⟩

mutual
theorem attrXml_err {lim : Nat} {e : PyErr} : ∀ {a : Attr F}, Typed a → attrXmlLim lim a = .error e → e = .valueError
  | .mk k key ex v m c, ht, h => by
    rw [attrXmlLim] at h
    rw [Typed] at ht
    by_cases hk : k.isCollection = true
    · rw [if_pos hk] at h ht
      rcases bind_err h with h | ⟨_, _, h⟩
      · exact attrsXml_err ht.2 h
      · cases h
    · rw [if_neg hk] at h ht
      rcases bind_err h with h | ⟨_, _, h⟩
      · exact simpleStr_typed ht.1 h
      · rcases bind_err h with h | ⟨_, _, h⟩
        · exact mapXml_err ht.2 h
        · cases h
theorem attrsXml_err {lim : Nat} {e : PyErr} : ∀ {as : List (Attr F)}, TypedList as → attrsXmlLim lim as = .error e → e = .valueError
  | [], _, h => by rw [attrsXmlLim] at h; cases h
  | a :: as, ht, h => by
    rw [attrsXmlLim] at h
    rcases bind_err h with h | ⟨_, _, h⟩
    · exact attrXml_err ht.1 h
    · rcases bind_err h with h | ⟨_, _, h⟩
      · exact attrsXml_err ht.2 h
      · cases h
theorem mapXml_err {lim : Nat} {e : PyErr} : ∀ {as : List (Str × Attr F)}, TypedMap as → mapXmlLim lim as = .error e → e = .valueError
  | [], _, h => by rw [mapXmlLim] at h; cases h
  | (_, a) :: as, ht, h => by
    rw [mapXmlLim] at h
    rcases bind_err h with h | ⟨_, _, h⟩
    · exact attrXml_err ht.1 h
    · rcases bind_err h with h | ⟨_, _, h⟩
      · exact mapXml_err ht.2 h
      · cases h
end

theorem events_small {lim : Nat} : ∀ {es : List (Event F)}, (∀ e ∈ es, SmallMap lim e.attrs) → eventsXmlLim lim es = eventsXml es
  | [], _ => rfl
  | e :: es, h => by
    rw [eventsXmlLim, eventsXml, mapXml_small (h e (by simp)), events_small fun e he => h e (by simp [he])]

theorem traces_small {lim : Nat} : ∀ {ts : List (Trace F)}, (∀ t ∈ ts, SmallMap lim t.attrs ∧ ∀ e ∈ t.events, SmallMap lim e.attrs) → tracesXmlLim lim ts = tracesXml ts
  | [], _ => rfl
  | t :: ts, h => by
    rw [tracesXmlLim, tracesXml, mapXml_small (h t (by simp)).1, events_small (h t (by simp)).2, traces_small fun t ht => h t (by simp [ht])]

theorem global_small {lim : Nat} {scope : Str} {as : List (Attr F)} (h : SmallAttrs lim as) : globalXmlLim lim scope as = globalXml scope as := by
  rw [globalXmlLim, globalXml, attrsXml_small h]

theorem events_fits {lim : Nat} : ∀ {es : List (Event F)} {xs : List Xml}, eventsXmlLim lim es = .ok xs → ∀ e ∈ es, SmallMap lim e.attrs
  | [], _, _ => by simp
  | e :: es, xs, h => by
    rw [eventsXmlLim] at h
    obtain ⟨x, h1, h⟩ := bind_ok.1 h
    obtain ⟨ys, h2, _⟩ := bind_ok.1 h
    intro f hf
    rcases List.mem_cons.1 hf with rfl | hf
    · exact mapXml_fits h1
    · exact events_fits h2 f hf

theorem traces_fits {lim : Nat} : ∀ {ts : List (Trace F)} {xs : List Xml}, tracesXmlLim lim ts = .ok xs →
    ∀ t ∈ ts, SmallMap lim t.attrs ∧ ∀ e ∈ t.events, SmallMap lim e.attrs
  | [], _, _ => by simp
  | t :: ts, xs, h => by
    rw [tracesXmlLim] at h
    obtain ⟨x, h1, h⟩ := bind_ok.1 h
    obtain ⟨ys, h2, h⟩ := bind_ok.1 h
    obtain ⟨zs, h3, _⟩ := bind_ok.1 h
    intro f hf
    rcases List.mem_cons.1 hf with rfl | hf
    · exact ⟨mapXml_fits h1, events_fits h2⟩
    · exact traces_fits h3 f hf

theorem global_fits {lim : Nat} {scope : Str} {as : List (Attr F)} {xs : List Xml} (h : globalXmlLim lim scope as = .ok xs) : SmallAttrs lim as := by
  rw [globalXmlLim] at h
  split at h
  · obtain ⟨ks, h1, _⟩ := bind_ok.1 h
    exact attrsXml_fits h1
  · cases as with
    | nil => trivial
    | cons a as => simp at *

theorem events_err {lim : Nat} {e : PyErr} : ∀ {es : List (Event F)}, (∀ e ∈ es, TypedMap e.attrs) → eventsXmlLim lim es = .error e → e = .valueError
  | [], _, h => by cases h
  | x :: es, ht, h => by
    rw [eventsXmlLim] at h
    rcases bind_err h with h | ⟨_, _, h⟩
    · exact mapXml_err (ht x (by simp)) h
    · rcases bind_err h with h | ⟨_, _, h⟩
      · exact events_err (fun e he => ht e (by simp [he])) h
      · cases h

theorem traces_err {lim : Nat} {e : PyErr} : ∀ {ts : List (Trace F)}, (∀ t ∈ ts, TypedMap t.attrs ∧ ∀ e ∈ t.events, TypedMap e.attrs) →
    tracesXmlLim lim ts = .error e → e = .valueError
  | [], _, h => by cases h
  | t :: ts, ht, h => by
    rw [tracesXmlLim] at h
    rcases bind_err h with h | ⟨_, _, h⟩
    · exact mapXml_err (ht t (by simp)).1 h
    · rcases bind_err h with h | ⟨_, _, h⟩
      · exact events_err (ht t (by simp)).2 h
      · rcases bind_err h with h | ⟨_, _, h⟩
        · exact traces_err (fun e he => ht e (by simp [he])) h
        · cases h

theorem global_err {lim : Nat} {e : PyErr} {scope : Str} {as : List (Attr F)} (ht : TypedList as) (h : globalXmlLim lim scope as = .error e) : e = .valueError := by
  rw [globalXmlLim] at h
  split at h
  · rcases bind_err h with h | ⟨_, _, h⟩
    · exact attrsXml_err ht h
    · cases h
  · cases h

theorem serialize_small {lim : Nat} {L : Log F} (h : SmallLog lim L) : serializeXesLim lim L = serializeXes L := by
  rw [serializeXesLim, serializeXes, global_small h.globalTrace, global_small h.globalEvent, mapXml_small h.attrs, traces_small h.traces]

theorem serialize_fits {lim : Nat} {L : Log F} {x : Xml} (h : serializeXesLim lim L = .ok x) : SmallLog lim L := by
  obtain ⟨_, h1, h⟩ := bind_ok.1 h
  obtain ⟨_, h2, h⟩ := bind_ok.1 h
  obtain ⟨_, h3, h⟩ := bind_ok.1 h
  obtain ⟨_, h4, _⟩ := bind_ok.1 h
  exact ⟨mapXml_fits h3, global_fits h1, global_fits h2, traces_fits h4⟩

theorem serialize_err {lim : Nat} {e : PyErr} {L : Log F} (hL : WritableLog L) (h : serializeXesLim lim L = .error e) : e = .valueError := by
  rcases bind_err h with h | ⟨_, _, h⟩
  · exact global_err hL.globalTrace h
  rcases bind_err h with h | ⟨_, _, h⟩
  · exact global_err hL.globalEvent h
  rcases bind_err h with h | ⟨_, _, h⟩
  · exact mapXml_err hL.attrs h
  rcases bind_err h with h | ⟨_, _, h⟩
  · exact traces_err hL.traces h
  cases h

/-- C179: a log whose integers have at most as many digits as Python converts is saved as without a limit. -/
theorem c179_save {lim : Nat} {L : Log F} (h : SmallLog lim L) (modern : Bool) : saveXesLim lim modern L = saveXes modern L := by
  rw [saveXesLim, saveXes, serialize_small h]

/-- C179: one integer that is longer, anywhere in the log, and saving raises; ValueError, if the values have the types of their classes. -/
theorem c179_save_long {lim : Nat} {L : Log F} (h : ¬ SmallLog lim L) (modern : Bool) :
    (∃ e, saveXesLim lim modern L = .error e) ∧ (WritableLog L → saveXesLim lim modern L = .error .valueError) := by
  cases hs : serializeXesLim lim L with
  | ok x => exact absurd (serialize_fits hs) h
  | error e =>
    have : saveXesLim lim modern L = .error e := by
      rw [saveXesLim, hs]
      rfl
    exact ⟨⟨e, this⟩, fun hL => by rw [this, serialize_err hL hs]⟩


/-! ## Loading -/

/-- Hour or minute of the zone are too long. -/
def longZone (lim : Nat) (s : Str) : Bool :=
  match splitChar ':' (splitZone s).2 with
  | [h, m] => overLimit lim (intDigits h) || overLimit lim (intDigits m)
  | _ => false

theorem splitChar_one (z : Str) (h : z = ['Z'] ∨ z = []) : ∃ w, splitChar ':' z = [w] := by
  rcases h with rfl | rfl
  · exact ⟨['Z'], by decide⟩
  · exact ⟨[], by decide⟩

theorem parse_lim (lim : Nat) (s : Str) : parseDateTimeLim lim s = if longZone lim s then .ok none else parseDateTime s := by
  unfold parseDateTimeLim parseDateTime longZone
  cases hs : splitZone s with
  | mk v z =>
    simp only
    have key : zoneOffsetLim lim z = if (match splitChar ':' z with
        | [h, m] => overLimit lim (intDigits h) || overLimit lim (intDigits m)
        | _ => false) = true then none else zoneOffset z := by
      unfold zoneOffsetLim zoneOffset
      by_cases hz : z ≠ ['Z'] ∧ z ≠ []
      · rw [if_pos hz, if_pos hz]
        unfold pyIntLim
        rcases hsp : splitChar ':' z with _ | ⟨h, _ | ⟨m, _ | ⟨_, _⟩⟩⟩
        · simp
        · simp
        · by_cases h1 : overLimit lim (intDigits m) = true
          · simp [h1]
          · by_cases h2 : overLimit lim (intDigits h) = true
            · simp only [h1, h2, if_true, Bool.true_or]
              cases pyInt m <;> rfl
            · simp only [h1, h2, Bool.or_self, Bool.false_eq_true, if_false]
        · simp
      · rw [if_neg hz, if_neg hz]
        obtain ⟨w, hw⟩ := splitChar_one z (by
          by_cases h1 : z = ['Z']
          · exact Or.inl h1
          · exact Or.inr (Classical.byContradiction fun h2 => hz ⟨h1, h2⟩))
        rw [hw]
        simp
    rw [key]
    generalize (match splitChar ':' z with
        | [h, m] => overLimit lim (intDigits h) || overLimit lim (intDigits m)
        | _ => false) = b
    cases b
    · simp
      rfl
    · simp

/-- The value of an element is too long to be converted. -/
def longValue (lim : Nat) (tag v : Str) : Bool :=
  (tag = py!"int" && overLimit lim (intDigits v)) || (tag = py!"date" && longZone lim v)

theorem readVal_lim (lim : Nat) (tag v : Str) : readValLim (F := F) lim tag v = readVal tag (if longValue lim tag v then [] else v) := by
  unfold readValLim longValue
  by_cases hd : tag = py!"date"
  · subst hd
    rw [if_pos rfl, parse_lim]
    have e1 : ∀ s, readVal (F := F) py!"date" s = (match parseDateTime s with
      | .error e => .error e
      | .ok none => .ok none
      | .ok (some d) => .ok (some (.timestamp, .dt d))) := fun s => rfl
    rw [e1]
    cases hl : longZone lim v with
    | true =>
      have : parseDateTime [] = .ok none := by decide
      simp [this]
    | false =>
      simp
      rfl
  · rw [if_neg hd]
    by_cases hi : tag = py!"int"
    · subst hi
      rw [if_pos rfl]
      have e1 : ∀ s, readVal (F := F) py!"int" s = (match pyInt s with
        | some z => .ok (some (.discrete, .int z))
        | none => .error .valueError) := fun s => rfl
      rw [e1, pyIntLim]
      cases hl : overLimit lim (intDigits v) with
      | true =>
        have : pyInt [] = none := by decide
        simp [this]
      | false =>
        simp
        rfl
    · rw [if_neg hi]
      simp [hd, hi]

/-- The element without a value that is too long. -/
def cutAttrs (lim : Nat) (t : Str) (as : List (Str × Str)) : List (Str × Str) :=
  if longValue lim (lower t) (elemValue as) then dset py!"value" [] as else as

/-- The same for an event of the reader. -/
def cutSax (lim : Nat) : Sax → Sax
  | .start t as => .start t (cutAttrs lim t as)
  | .stop t => .stop t

mutual
/-- The same for a document. -/
def cutXml (lim : Nat) : Xml → Xml
  | .elem t as ks => .elem t (cutAttrs lim t as) (cutXmls lim ks)
/-- The same for a list. -/
def cutXmls (lim : Nat) : List Xml → List Xml
  | [] => []
  | x :: xs => cutXml lim x :: cutXmls lim xs
end

mutual
theorem cut_sax (lim : Nat) : ∀ x : Xml, (cutXml lim x).sax = x.sax.map (cutSax lim)
  | .elem t as ks => by simp [cutXml, Xml.sax, cutSax, cut_saxs lim ks]
theorem cut_saxs (lim : Nat) : ∀ xs : List Xml, saxList (cutXmls lim xs) = (saxList xs).map (cutSax lim)
  | [] => rfl
  | x :: xs => by simp [cutXmls, saxList, cut_sax lim x, cut_saxs lim xs]
end

theorem cut_value (lim : Nat) (t : Str) (as : List (Str × Str)) :
    elemValue (cutAttrs lim t as) = if longValue lim (lower t) (elemValue as) then [] else elemValue as := by
  unfold cutAttrs
  split
  · rw [elemValue, dget_dset_self]
  · rfl

theorem cutAttrs_key (lim : Nat) (t : Str) (as : List (Str × Str)) : elemKey (cutAttrs lim t as) = elemKey as := by
  unfold cutAttrs
  split
  · rw [elemKey, elemKey, dget_dset_ne (by decide)]
  · rfl

theorem long_tag {lim : Nat} {tag v : Str} (h : longValue lim tag v = true) : tag ∈ attrTags := by
  simp only [longValue, Bool.or_eq_true, Bool.and_eq_true, decide_eq_true_eq] at h
  rcases h with ⟨rfl, _⟩ | ⟨rfl, _⟩ <;> decide

theorem start_lim (lim : Nat) (fac : Factory F) (mgr : ExtMgr) (st : XesSt F) (t : Str) (as : List (Str × Str)) :
    xesStartLim lim fac mgr st t as = xesStart fac mgr st t (cutAttrs lim t as) := by
  by_cases ht : lower t ∈ attrTags
  · rw [xesStart_attr fac mgr st ht, cutAttrs_key, cut_value, ← readVal_lim]
    simp only [xesStartLim, ht, not_true, if_false]
    cases h1 : dget py!"value" as <;> cases h2 : dget py!"key" as <;> simp only [elemValue, elemKey, h1, h2] <;> rfl
  · have : cutAttrs lim t as = as := by
      unfold cutAttrs
      rw [if_neg fun h => ht (long_tag h)]
    rw [this]
    simp only [xesStartLim, ht, not_false_eq_true, if_true]

theorem run_lim (lim : Nat) (fac : Factory F) (mgr : ExtMgr) : ∀ (evs : List Sax) (st : XesSt F),
    xesRunLim lim fac mgr st evs = xesRun fac mgr st (evs.map (cutSax lim))
  | [], _ => rfl
  | .start t as :: es, st => by
    simp only [xesRunLim, List.map_cons, cutSax, xesRun, xesStep, start_lim, run_lim lim fac mgr es]
  | .stop t :: es, st => by
    simp only [xesRunLim, List.map_cons, cutSax, xesRun, xesStep, run_lim lim fac mgr es]

/-- C179: loading with a limit is loading without, once the values that are too long have been blanked out. -/
theorem c179_load_exact (lim : Nat) (given : Option (Factory F)) (reg : Factory F) (mgr : ExtMgr) (h : Heap F) (x : Xml) :
    xesParseLim lim given reg mgr h x.sax = xesParse given reg mgr h (cutXml lim x).sax := by
  rw [cut_sax]
  unfold xesParseLim xesParse
  rw [run_lim]

theorem shortText_over {lim : Nat} {s : Str} : ShortText lim s ↔ overLimit lim (intDigits s) = false := by
  rw [← Bool.not_eq_true, overLimit_iff, Classical.not_not]
  rfl

theorem shortText_sub {lim : Nat} {s r : Str} (h : ShortText lim s) (hs : r.Sublist s) : ShortText lim r := by
  rcases h with h | h
  · exact Or.inl h
  · exact Or.inr (Nat.le_trans hs.countP_le h)

theorem breakAt_parts {c : Char} : ∀ {s a b : Str}, breakAt c s = some (a, b) → s = a ++ b
  | x :: xs, a, b, h => by
    rw [breakAt] at h
    split at h
    · cases h
      rfl
    · split at h
      · cases h
      · next hb =>
        cases h
        rw [breakAt_parts hb]
        rfl

theorem splitZone_sub (s : Str) : (splitZone s).2.Sublist s := by
  unfold splitZone
  split
  · next h => simpa using h
  · split
    · next v z h =>
      rw [breakAt_parts h]
      simp
    · split
      · split
        · next z m v h =>
          have := congrArg List.reverse (breakAt_parts h)
          rw [List.reverse_reverse] at this
          rw [this]
          simp
        · simp
      · simp

theorem splitChar_sub {c : Char} : ∀ {s : Str}, ∀ p ∈ splitChar c s, p.Sublist s
  | [], p, h => by
    rw [splitChar, List.mem_singleton] at h
    rw [h]
    exact .slnil
  | x :: xs, p, h => by
    by_cases hx : x = c
    · subst hx
      rw [splitChar_cons_self, List.mem_cons] at h
      rcases h with rfl | h
      · simp
      · exact (splitChar_sub p h).cons _
    · obtain ⟨q, qs, h1, h2⟩ := splitChar_cons_ne xs hx
      rw [h2, List.mem_cons] at h
      rcases h with rfl | h
      · exact (splitChar_sub q (by rw [h1]; simp)).cons_cons _
      · exact (splitChar_sub p (by rw [h1]; simp [h])).cons _

theorem longZone_short {lim : Nat} {s : Str} (h : ShortText lim s) : longZone lim s = false := by
  unfold longZone
  split
  · next a b e =>
    have h1 : a.Sublist s := (splitChar_sub a (by rw [e]; simp)).trans (splitZone_sub s)
    have h2 : b.Sublist s := (splitChar_sub b (by rw [e]; simp)).trans (splitZone_sub s)
    rw [shortText_over.1 (shortText_sub h h1), shortText_over.1 (shortText_sub h h2)]
    rfl
  · rfl

/-- C179: a date text with at most as many digits as Python converts is read as without a limit; if hour or minute of the zone have more
digits, None is returned, also where OverflowError would be raised without a limit (C05). -/
theorem c179_date {lim : Nat} {s : Str} :
    (ShortText lim s → parseDateTimeLim lim s = parseDateTime s) ∧
    ∀ v h m, s = v ++ '+' :: (h ++ ':' :: m) → 'Z' ∉ s → '+' ∉ v → ':' ∉ h → ':' ∉ m → (¬ ShortText lim h ∨ ¬ ShortText lim m) →
      parseDateTimeLim lim s = .ok none := by
  constructor
  · intro h
    rw [parse_lim, longZone_short h]
    rfl
  · intro v h m e hz hp h1 h2 hl
    have : splitZone s = (v, '+' :: (h ++ ':' :: m)) := by
      unfold splitZone
      rw [if_neg hz, e, breakAt_append hp]
    rw [parse_lim, if_pos]
    unfold longZone
    rw [this]
    have e2 : splitChar ':' ('+' :: (h ++ ':' :: m)) = ['+' :: h, m] := by
      have := splitChar_append_sep (c := ':') (a := '+' :: h) (by simpa using h1) m
      rw [splitChar_of_not_mem h2] at this
      exact this
    simp only [e2, Bool.or_eq_true]
    have e3 : intDigits ('+' :: h) = intDigits h := by
      simp [intDigits, show digitVal? '+' = none by decide]
    rw [e3]
    rcases hl with hl | hl
    · left
      rw [shortText_over] at hl
      simpa using hl
    · right
      rw [shortText_over] at hl
      simpa using hl

mutual
theorem cut_short {lim : Nat} : ∀ {x : Xml}, EveryElem (fun t as => lower t = py!"int" ∨ lower t = py!"date" → ShortText lim (elemValue as)) x → cutXml lim x = x
  | .elem t as ks, h => by
    rw [EveryElem] at h
    rw [cutXml, cuts_short h.2]
    have : longValue lim (lower t) (elemValue as) = false := by
      simp only [longValue, Bool.or_eq_false_iff, Bool.and_eq_false_iff, decide_eq_false_iff_not]
      constructor
      · by_cases hi : lower t = py!"int"
        · exact Or.inr (shortText_over.1 (h.1 (Or.inl hi)))
        · exact Or.inl hi
      · by_cases hi : lower t = py!"date"
        · exact Or.inr (longZone_short (h.1 (Or.inr hi)))
        · exact Or.inl hi
    rw [cutAttrs, this]
    rfl
theorem cuts_short {lim : Nat} : ∀ {xs : List Xml}, EveryElems (fun t as => lower t = py!"int" ∨ lower t = py!"date" → ShortText lim (elemValue as)) xs → cutXmls lim xs = xs
  | [], _ => rfl
  | x :: xs, h => by rw [cutXmls, cut_short h.1, cuts_short h.2]
end

/-- C179: a document whose integers and dates have at most as many digits as Python converts is loaded as without a limit. -/
theorem c179_load {lim : Nat} {x : Xml} (hx : EveryElem (fun t as => lower t = py!"int" ∨ lower t = py!"date" → ShortText lim (elemValue as)) x)
    (given : Option (Factory F)) (reg : Factory F) (mgr : ExtMgr) (h : Heap F) :
    xesParseLim lim given reg mgr h x.sax = xesParse given reg mgr h x.sax := by
  rw [c179_load_exact, cut_short hx]

theorem run_starts {lim : Nat} {fac : Factory F} {mgr : ExtMgr} {t : Str} {as : List (Str × Str)} : ∀ {evs : List Sax} {st st' : XesSt F},
    xesRunLim lim fac mgr st evs = .ok st' → Sax.start t as ∈ evs → ∃ s s', xesStartLim lim fac mgr s t as = .ok s'
  | .start u bs :: es, st, st', h, hm => by
    obtain ⟨s, h1, h2⟩ := bind_ok.1 h
    rcases List.mem_cons.1 hm with e | hm
    · cases e
      exact ⟨_, _, h1⟩
    · exact run_starts h2 hm
  | .stop u :: es, st, st', h, hm => by
    obtain ⟨s, h1, h2⟩ := bind_ok.1 h
    rcases List.mem_cons.1 hm with e | hm
    · cases e
    · exact run_starts h2 hm

mutual
theorem elem_starts {P : Str → List (Str × Str) → Prop} : ∀ {x : Xml}, ¬ EveryElem P x → ∃ t as, Sax.start t as ∈ x.sax ∧ ¬ P t as
  | .elem t as ks, h => by
    rw [EveryElem] at h
    by_cases hp : P t as
    · obtain ⟨u, bs, h1, h2⟩ := elems_starts fun k => h ⟨hp, k⟩
      exact ⟨u, bs, by simp [Xml.sax, h1], h2⟩
    · exact ⟨t, as, by simp [Xml.sax], hp⟩
theorem elems_starts {P : Str → List (Str × Str) → Prop} : ∀ {xs : List Xml}, ¬ EveryElems P xs → ∃ t as, Sax.start t as ∈ saxList xs ∧ ¬ P t as
  | [], h => absurd trivial h
  | x :: xs, h => by
    by_cases hp : EveryElem P x
    · obtain ⟨u, bs, h1, h2⟩ := elems_starts (P := P) fun k => h ⟨hp, k⟩
      exact ⟨u, bs, by simp [saxList, h1], h2⟩
    · obtain ⟨u, bs, h1, h2⟩ := elem_starts hp
      exact ⟨u, bs, by simp [saxList, h1], h2⟩
end

/-- C179: one integer that is longer, anywhere in the document, and loading raises. -/
theorem c179_load_long {lim : Nat} {x : Xml} (hx : ¬ EveryElem (fun t as => lower t = py!"int" → ShortText lim (elemValue as)) x)
    (given : Option (Factory F)) (reg : Factory F) (mgr : ExtMgr) (h : Heap F) :
    ∃ e, xesParseLim lim given reg mgr h x.sax = .error e := by
  obtain ⟨t, as, h1, h2⟩ := elem_starts hx
  have ht : lower t = py!"int" := Classical.byContradiction fun k => h2 fun e => absurd e k
  have hs : ¬ ShortText lim (elemValue as) := fun k => h2 fun _ => k
  cases hp : xesParseLim lim given reg mgr h x.sax with
  | error e => exact ⟨e, rfl⟩
  | ok r =>
    exfalso
    obtain ⟨st, h3, _⟩ := bind_ok.1 hp
    obtain ⟨s, s', h4⟩ := run_starts h3 h1
    rw [start_lim, xesStart_attr _ _ _ (by rw [ht]; decide)] at h4
    obtain ⟨o, h5, _⟩ := bind_ok.1 h4
    rw [cut_value, ← readVal_lim, ht] at h5
    have : readValLim (F := F) lim py!"int" (elemValue as) = .error .valueError := by
      have k : overLimit lim (intDigits (elemValue as)) = true := by
        rw [shortText_over] at hs
        simpa using hs
      have e : readValLim (F := F) lim py!"int" (elemValue as) = (match pyIntLim lim (elemValue as) with
        | some z => .ok (some (.discrete, .int z))
        | none => .error .valueError) := rfl
      rw [e, pyIntLim, if_pos k]
    rw [this] at h5
    cases h5


/-! ## Saving and loading -/

theorem pad_length (w n : Nat) (h : n < 10 ^ 9) : (padNat w n).length ≤ w + 9 := by
  have := (natStr_digits_le n 9 (by decide)).2 h
  simp only [padNat, List.length_append, List.length_replicate]
  omega

theorem xesStr_length {d : DateTime} (g : GoodDateTime d) : d.xesStr.length ≤ 640 := by
  have r := (valid_iff d).1 g.valid
  have dm := daysInMonth_le d.year d.month
  have hz : (zoneText d.tz).length ≤ 24 := by
    cases htz : d.tz with
    | none => decide
    | some o =>
      by_cases h0 : o = 0
      · subst h0
        decide
      · obtain ⟨h1, h2, h3⟩ := g.offset o htz
        rw [zoneText_some h0 h3 ⟨h1, h2⟩]
        have a := pad_length 2 (o.natAbs / 3600) (by omega)
        have b := pad_length 2 (o.natAbs / 60 % 60) (by omega)
        simp only [List.length_cons, List.length_append]
        omega
  have a := pad_length 4 d.year (by omega)
  have b := pad_length 2 d.month (by omega)
  have c := pad_length 2 d.day (by omega)
  have e := pad_length 2 d.hour (by omega)
  have f := pad_length 2 d.minute (by omega)
  have i := pad_length 2 d.second (by omega)
  have j := pad_length 3 (d.micro / 1000) (by omega)
  simp only [DateTime.xesStr, List.length_append, List.length_cons, List.length_nil]
  omega

theorem intStr_short {lim : Nat} {z : Int} (h : SmallInt lim z) : ShortText lim (intStr z) := by
  rcases h with h | h
  · exact Or.inl h
  · by_cases h0 : lim = 0
    · exact Or.inl h0
    right
    have k : (natStr z.natAbs).length ≤ lim := (natStr_digits_le _ _ (by omega)).2 h
    cases z with
    | ofNat n => exact Nat.le_trans List.countP_le_length k
    | negSucc n =>
      rw [intStr, List.countP_cons_of_neg (by decide)]
      exact Nat.le_trans List.countP_le_length k

/-- A condition on the values of integers and dates. -/
def FitsElem (lim : Nat) (t : Str) (as : List (Str × Str)) : Prop := lower t = py!"int" ∨ lower t = py!"date" → ShortText lim (elemValue as)

theorem simple_readable {lim : Nat} (hl : lim = 0 ∨ 640 ≤ lim) {ws : Str → Str} (hc : Channel ws) {k : Kind} {v : PyVal F} (hk : ¬ k.isCollection = true)
    (hv : GoodVal k v) (hs : SmallVal lim v) {key t : Str} {e : Option Ext} {m : AttrMap F} {c : List (Attr F)} (h : attrStr (.mk k key e v m c) = .ok t) :
    FitsElem lim k.tag [(py!"key", ws key), (py!"value", ws t)] := by
  intro hi
  have e1 : elemValue [(py!"key", ws key), (py!"value", ws t)] = ws t := rfl
  rw [e1]
  cases k with
  | discrete =>
    cases v with
    | int z =>
      simp only [attrStr, pyStr, Except.ok.injEq] at h
      subst h
      rw [hc.fixPlain (plain_intStr z)]
      exact intStr_short hs
    | _ => exact absurd hv id
  | timestamp =>
    cases v with
    | dt d =>
      simp only [attrStr, Except.ok.injEq] at h
      subst h
      rw [hc.fixPlain (plain_xesStr hv)]
      rcases hl with hl | hl
      · exact Or.inl hl
      · exact Or.inr (Nat.le_trans List.countP_le_length (Nat.le_trans (xesStr_length hv) hl))
    | _ => exact absurd hv id
  | list => exact absurd rfl hk
  | container => exact absurd rfl hk
  | _ => exact absurd hi (by decide)

mutual
theorem attr_readable {lim : Nat} (hl : lim = 0 ∨ 640 ≤ lim) {ws : Str → Str} (hc : Channel ws) : ∀ {a : Attr F} {x : Xml}, Typed a → SmallAttr lim a →
    attrXml a = .ok x → EveryElem (FitsElem lim) (x.through ws)
  | .mk k key e v m c, x, ht, hs, h => by
    rw [attrXml] at h
    rw [Typed] at ht
    rw [SmallAttr] at hs
    by_cases hk : k.isCollection = true
    · rw [if_pos hk] at h ht hs
      obtain ⟨ks, h1, h⟩ := bind_ok.1 h
      cases h
      refine ⟨fun hi => ?_, attrs_readable hl hc ht.2 hs h1⟩
      cases k <;> first | exact absurd hi (by decide) | exact absurd hk (by decide)
    · rw [if_neg hk] at h ht hs
      obtain ⟨s, h1, h⟩ := bind_ok.1 h
      obtain ⟨ks, h2, h⟩ := bind_ok.1 h
      cases h
      exact ⟨simple_readable hl hc hk ht.1 hs.1 h1, amap_readable hl hc ht.2 hs.2 h2⟩
theorem attrs_readable {lim : Nat} (hl : lim = 0 ∨ 640 ≤ lim) {ws : Str → Str} (hc : Channel ws) : ∀ {as : List (Attr F)} {xs : List Xml}, TypedList as →
    SmallAttrs lim as → attrsXml as = .ok xs → EveryElems (FitsElem lim) (throughList ws xs)
  | [], xs, _, _, h => by rw [attrsXml] at h; cases h; trivial
  | a :: as, xs, ht, hs, h => by
    rw [attrsXml] at h
    obtain ⟨x, h1, h⟩ := bind_ok.1 h
    obtain ⟨ys, h2, h⟩ := bind_ok.1 h
    cases h
    exact ⟨attr_readable hl hc ht.1 hs.1 h1, attrs_readable hl hc ht.2 hs.2 h2⟩
theorem amap_readable {lim : Nat} (hl : lim = 0 ∨ 640 ≤ lim) {ws : Str → Str} (hc : Channel ws) : ∀ {as : List (Str × Attr F)} {xs : List Xml}, TypedMap as →
    SmallMap lim as → mapXml as = .ok xs → EveryElems (FitsElem lim) (throughList ws xs)
  | [], xs, _, _, h => by rw [mapXml] at h; cases h; trivial
  | (_, a) :: as, xs, ht, hs, h => by
    rw [mapXml] at h
    obtain ⟨x, h1, h⟩ := bind_ok.1 h
    obtain ⟨ys, h2, h⟩ := bind_ok.1 h
    cases h
    exact ⟨attr_readable hl hc ht.1 hs.1 h1, amap_readable hl hc ht.2 hs.2 h2⟩
end

theorem through_append (ws : Str → Str) : ∀ xs ys : List Xml, throughList ws (xs ++ ys) = throughList ws xs ++ throughList ws ys
  | [], _ => rfl
  | x :: xs, ys => by simp [throughList, through_append ws xs ys]

theorem everyElems_append {P : Str → List (Str × Str) → Prop} : ∀ {xs ys : List Xml}, EveryElems P xs → EveryElems P ys → EveryElems P (xs ++ ys)
  | [], _, _, h => h
  | _ :: _, _, h1, h2 => ⟨h1.1, everyElems_append h1.2 h2⟩

theorem global_readable {lim : Nat} (hl : lim = 0 ∨ 640 ≤ lim) {ws : Str → Str} (hc : Channel ws) {scope : Str} {as : List (Attr F)} {xs : List Xml}
    (ht : TypedList as) (hs : SmallAttrs lim as) (h : globalXml scope as = .ok xs) : EveryElems (FitsElem lim) (throughList ws xs) := by
  rw [globalXml] at h
  split at h
  · obtain ⟨ks, h1, h⟩ := bind_ok.1 h
    cases h
    exact ⟨⟨fun hi => absurd hi (by decide), attrs_readable hl hc ht hs h1⟩, trivial⟩
  · cases h
    trivial

theorem events_readable {lim : Nat} (hl : lim = 0 ∨ 640 ≤ lim) {ws : Str → Str} (hc : Channel ws) : ∀ {es : List (Event F)} {xs : List Xml},
    (∀ e ∈ es, TypedMap e.attrs) → (∀ e ∈ es, SmallMap lim e.attrs) → eventsXml es = .ok xs → EveryElems (FitsElem lim) (throughList ws xs)
  | [], xs, _, _, h => by cases h; trivial
  | e :: es, xs, ht, hs, h => by
    rw [eventsXml] at h
    obtain ⟨x, h1, h⟩ := bind_ok.1 h
    obtain ⟨ys, h2, h⟩ := bind_ok.1 h
    cases h
    exact ⟨⟨fun hi => absurd hi (by decide), amap_readable hl hc (ht e (by simp)) (hs e (by simp)) h1⟩,
      events_readable hl hc (fun e he => ht e (by simp [he])) (fun e he => hs e (by simp [he])) h2⟩

theorem traces_readable {lim : Nat} (hl : lim = 0 ∨ 640 ≤ lim) {ws : Str → Str} (hc : Channel ws) : ∀ {ts : List (Trace F)} {xs : List Xml},
    (∀ t ∈ ts, TypedMap t.attrs ∧ ∀ e ∈ t.events, TypedMap e.attrs) → (∀ t ∈ ts, SmallMap lim t.attrs ∧ ∀ e ∈ t.events, SmallMap lim e.attrs) →
    tracesXml ts = .ok xs → EveryElems (FitsElem lim) (throughList ws xs)
  | [], xs, _, _, h => by cases h; trivial
  | t :: ts, xs, ht, hs, h => by
    rw [tracesXml] at h
    obtain ⟨x, h1, h⟩ := bind_ok.1 h
    obtain ⟨ys, h2, h⟩ := bind_ok.1 h
    obtain ⟨zs, h3, h⟩ := bind_ok.1 h
    cases h
    refine ⟨⟨fun hi => absurd hi (by decide), ?_⟩, traces_readable hl hc (fun e he => ht e (by simp [he])) (fun e he => hs e (by simp [he])) h3⟩
    rw [through_append]
    exact everyElems_append (amap_readable hl hc (ht t (by simp)).1 (hs t (by simp)).1 h1) (events_readable hl hc (ht t (by simp)).2 (hs t (by simp)).2 h2)

theorem log_fitsElem {lim : Nat} (hl : lim = 0 ∨ 640 ≤ lim) {ws : Str → Str} (hc : Channel ws) {L : Log F} (hL : WritableLog L) (hs : SmallLog lim L) {x : Xml}
    (h : serializeXes L = .ok x) : EveryElem (FitsElem lim) (x.through ws) := by
  obtain ⟨_, h1, h⟩ := bind_ok.1 h
  obtain ⟨_, h2, h⟩ := bind_ok.1 h
  obtain ⟨_, h3, h⟩ := bind_ok.1 h
  obtain ⟨_, h4, h⟩ := bind_ok.1 h
  cases h
  have e1 : ∀ es : List Ext, EveryElems (FitsElem lim) (throughList ws (es.map extXml)) := by
    intro es
    induction es with
    | nil => trivial
    | cons e es ih => exact ⟨⟨fun hi => absurd hi (by decide), trivial⟩, ih⟩
  have e2 : ∀ es : List Classifier, EveryElems (FitsElem lim) (throughList ws (es.map classifierXml)) := by
    intro es
    induction es with
    | nil => trivial
    | cons e es ih => exact ⟨⟨fun hi => absurd hi (by decide), trivial⟩, ih⟩
  refine ⟨fun hi => absurd hi (by decide), ?_⟩
  simp only [through_append]
  exact everyElems_append (everyElems_append (everyElems_append (everyElems_append (everyElems_append (e1 _) (global_readable hl hc hL.globalTrace hs.globalTrace h1))
    (global_readable hl hc hL.globalEvent hs.globalEvent h2)) (e2 _)) (amap_readable hl hc hL.attrs hs.attrs h3)) (traces_readable hl hc hL.traces hs.traces h4)

/-- C179: under any limit that Python allows (none, or 640 digits and more), what C110 says holds for the logs whose integers are not too long. -/
theorem c179_file {lim : Nat} (hl : lim = 0 ∨ 640 ≤ lim) (hf : FloatText F) (mgr : ExtMgr) (modern : Bool) {L : Log F} (hL : WritableLog L)
    (hg : LegalLog L) (hs : SmallLog lim L) : FileHoldsLim lim mgr modern L (norm mgr (valueBack modern) L.content) := by
  obtain ⟨x, hx, h⟩ := c39_normal_form mgr (valueChannel modern) hf hL
  obtain ⟨text, s, h1, h2, h3⟩ := (saveTree_spec modern xesComments_ok (xml_tidy (serializeXes_tidy hx))).1
    ((xml_legal x).2 ((serializeXes_legal hf hL hx).2 hg))
  refine ⟨text, by rw [c179_save hs]; simp [saveXes, hx, h1, bind, Except.bind], fun rnd given hp => ?_⟩
  obtain ⟨l, h', h4, h5⟩ := h rnd given hp
  refine ⟨l, h', ?_, h5⟩
  rw [← c179_load (log_fitsElem hl (valueChannel modern) hL hs hx)] at h4
  simp only [loadXesLim, h2, bind, Except.bind, reads_xes h3, h4]

end

/-! ## Examples -/

/-- A log with one integer. -/
def countLog (z : Int) : Log ToyFloat := ⟨[(py!"n", .mk .discrete py!"n" none (.int z) [] [])], [], [], [], [], [], []⟩

theorem countLog_writable (z : Int) : WritableLog (countLog z) :=
  ⟨⟨⟨trivial, trivial⟩, trivial⟩, trivial, trivial, by simp [countLog]⟩

/-- With a limit of 4300, or any other, 10 to the power 4300 has a digit too many: the log cannot be saved; one less, and it can. -/
example (lim : Nat) (h0 : lim ≠ 0) (modern : Bool) : saveXesLim lim modern (countLog (10 ^ lim)) = .error .valueError ∧
    saveXesLim lim modern (countLog (10 ^ lim - 1)) = saveXes modern (countLog (10 ^ lim - 1)) ∧
    saveXesLim 0 modern (countLog (10 ^ lim)) = saveXes modern (countLog (10 ^ lim)) := by
  refine ⟨(c179_save_long (fun h => ?_) modern).2 (countLog_writable _), c179_save ?_ modern, c179_save ?_ modern⟩
  · rcases h.attrs.1.1 with k | k
    · exact h0 k
    · have e : ((10 : Int) ^ lim).natAbs = 10 ^ lim := by rw [Int.natAbs_pow]; rfl
      rw [e] at k
      exact Nat.lt_irrefl _ k
  · refine ⟨⟨⟨Or.inr ?_, trivial⟩, trivial⟩, trivial, trivial, by simp [countLog]⟩
    have e : ((10 : Int) ^ lim) = ((10 ^ lim : Nat) : Int) := by simp
    have : 0 < 10 ^ lim := Nat.pow_pos (by decide)
    rw [e]
    omega
  · exact ⟨⟨⟨Or.inl rfl, trivial⟩, trivial⟩, trivial, trivial, by simp [countLog]⟩

theorem long_zeros {lim n : Nat} (h0 : lim ≠ 0) (h : lim < n) : ¬ ShortText lim (List.replicate n '0') := by
  rintro (k | k)
  · exact h0 k
  · rw [List.countP_replicate, if_pos (by decide)] at k
    omega

/-- A document with a number of 4301 digits cannot be loaded under a limit of 4300; zeros in front count. -/
example (given : Option (Factory ToyFloat)) (reg : Factory ToyFloat) (mgr : ExtMgr) (h : Heap ToyFloat) (lim n : Nat) (h0 : lim ≠ 0) (hn : lim < n) :
    ∃ e, xesParseLim lim given reg mgr h (Xml.elem py!"log" [] [.elem py!"int" [(py!"key", py!"n"), (py!"value", List.replicate n '0')] []]).sax = .error e := by
  refine c179_load_long (fun k => ?_) given reg mgr h
  simp only [EveryElem, EveryElems] at k
  exact long_zeros h0 hn (k.2.1.1 (by decide))

/-- An offset with too many digits is an unreadable date, also if it is small. -/
example (lim n : Nat) (h0 : lim ≠ 0) (hn : lim < n) :
    parseDateTimeLim lim (py!"2020-01-01T00:00:00" ++ '+' :: (List.replicate n '0' ++ ':' :: py!"30")) = .ok none :=
  c179_date.2 py!"2020-01-01T00:00:00" (List.replicate n '0') py!"30" rfl (by simp) (by decide) (by simp) (by decide) (Or.inl (long_zeros h0 hn))

/-- A log with an integer of 20 digits comes back. -/
example (lim : Nat) (hl : 640 ≤ lim) : FileHoldsLim lim ⟨fun _ => none, fun _ => .ok none⟩ true (countLog 12345678901234567890)
    (norm ⟨fun _ => none, fun _ => .ok none⟩ (valueBack true) (countLog 12345678901234567890).content) := by
  refine c179_file (Or.inr hl) toyFloatText _ _ (countLog_writable _) ⟨⟨⟨by unfold LegalText; decide, trivial, trivial⟩, trivial⟩, by simp [countLog], by simp [countLog], trivial, trivial, by simp [countLog]⟩
    ⟨⟨⟨Or.inr ?_, trivial⟩, trivial⟩, trivial, trivial, by simp [countLog]⟩
  exact Nat.lt_of_lt_of_le (m := 10 ^ 20) (by decide) (Nat.pow_le_pow_right (by decide) (by omega))

end Opy
