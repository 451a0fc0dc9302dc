import Verif.Model.ExtFile
import Verif.Props.Exact
import Verif.Props.XmlForm
import Verif.Props.Bytes
set_option linter.unusedSectionVars false
namespace Opy

/-! # Extension definition files (C156) -/

section
variable {F : Type} [PyFloat F]

/-! ## Spec -/

/-- The elements that define an attribute. -/
def defNames : List Str := [py!"string", py!"date", py!"int", py!"float", py!"boolean", py!"id"]

/-- The elements that group definitions. -/
def groupNames : List Str := [py!"log", py!"trace", py!"event", py!"meta"]

/-- An element `xesextension` has been met whose URI answers. -/
def Started (w : ExtWorld F) (before : List Sax) : Prop :=
  ∃ t as uri b, .start t as ∈ before ∧ lower t = py!"xesextension" ∧ dget py!"uri" as = some uri ∧ w.fetch uri = .data b

/-- The definition of an attribute has begun, and none has ended since. -/
def Defining (before : List Sax) : Prop :=
  ∃ b1 t as b2, before = b1 ++ .start t as :: b2 ∧ lower t ∈ defNames ∧ ∀ t', .stop t' ∈ b2 → lower t' ∉ defNames

/-- What is wrong with an element, given what stands before it. -/
inductive ExtFault (w : ExtWorld F) (before : List Sax) (t : Str) (as : List (Str × Str)) : PyErr → Prop
  | missing {k} : lower t = py!"xesextension" → k ∈ [py!"name", py!"prefix", py!"uri"] → dget k as = none → ExtFault w before t as .keyError
  | uri {n p uri e} : lower t = py!"xesextension" → dget py!"name" as = some n → dget py!"prefix" as = some p → dget py!"uri" as = some uri →
      w.urlParse uri = .error e → ExtFault w before t as e
  | fetch {n p uri u e} : lower t = py!"xesextension" → dget py!"name" as = some n → dget py!"prefix" as = some p → dget py!"uri" as = some uri →
      w.urlParse uri = .ok u → w.fetch uri = .raises e → ExtFault w before t as e
  | unstarted : lower t ∈ groupNames ++ defNames → ¬ Started w before → ExtFault w before t as .attributeError
  | key : lower t ∈ defNames → Started w before → dget py!"key" as = none → ExtFault w before t as .keyError
  | epoch {k e} : lower t = py!"date" → Started w before → dget py!"key" as = some k → w.epoch = .error e → ExtFault w before t as e
  | renamed {k} : lower t = py!"alias" → Defining before → k ∈ [py!"mapping", py!"name"] → dget k as = none → ExtFault w before t as .keyError

/-- No element of the document has a fault. -/
def NoFault (w : ExtWorld F) (doc : List Sax) : Prop := ∀ before t as after e, doc = before ++ .start t as :: after → ¬ ExtFault w before t as e

/-! ## Proof -/

/-- What the state says about the elements so far. -/
structure ExtInv (w : ExtWorld F) (done : List Sax) (st : ExtSt F) : Prop where
  started : st.ext ≠ none ↔ Started w done
  defining : st.cur ≠ none ↔ Defining done

theorem started_snoc {w : ExtWorld F} {done : List Sax} {x : Sax} : Started w (done ++ [x]) ↔ Started w done ∨ Started w [x] := by
  simp only [Started, List.mem_append]
  constructor
  · rintro ⟨t, as, u, b, h | h, h2⟩
    · exact .inl ⟨t, as, u, b, h, h2⟩
    · exact .inr ⟨t, as, u, b, h, h2⟩
  · rintro (⟨t, as, u, b, h, h2⟩ | ⟨t, as, u, b, h, h2⟩)
    · exact ⟨t, as, u, b, .inl h, h2⟩
    · exact ⟨t, as, u, b, .inr h, h2⟩

theorem defining_start {done : List Sax} {t : Str} {as : List (Str × Str)} : Defining (done ++ [.start t as]) ↔ Defining done ∨ lower t ∈ defNames := by
  constructor
  · rintro ⟨b1, t1, as1, b2, h, h1, h2⟩
    rcases List.eq_nil_or_concat b2 with rfl | ⟨b3, x, rfl⟩
    · have := List.append_inj' h rfl
      simp only [List.cons.injEq, Sax.start.injEq, and_true] at this
      exact .inr (this.2.1 ▸ h1)
    · rw [List.concat_eq_append, ← List.cons_append, ← List.append_assoc] at h
      have := List.append_inj' h rfl
      exact .inl ⟨b1, t1, as1, b3, this.1, h1, fun t' ht' => h2 t' (by simp [List.concat_eq_append, ht'])⟩
  · rintro (⟨b1, t1, as1, b2, rfl, h1, h2⟩ | h)
    · exact ⟨b1, t1, as1, b2 ++ [.start t as], by simp, h1, fun t' ht' => h2 t' (by simpa using ht')⟩
    · exact ⟨done, t, as, [], rfl, h, fun t' ht' => by cases ht'⟩

theorem defining_stop {done : List Sax} {t : Str} : Defining (done ++ [.stop t]) ↔ Defining done ∧ lower t ∉ defNames := by
  constructor
  · rintro ⟨b1, t1, as1, b2, h, h1, h2⟩
    rcases List.eq_nil_or_concat b2 with rfl | ⟨b3, x, rfl⟩
    · have := List.append_inj' h rfl
      simp at this
    · rw [List.concat_eq_append, ← List.cons_append, ← List.append_assoc] at h
      have := List.append_inj' h rfl
      simp only [List.cons.injEq, and_true] at this
      have hx := this.2
      subst hx
      exact ⟨⟨b1, t1, as1, b3, this.1, h1, fun t' ht' => h2 t' (by simp [List.concat_eq_append, ht'])⟩, h2 t (by simp [List.concat_eq_append])⟩
  · rintro ⟨⟨b1, t1, as1, b2, rfl, h1, h2⟩, h⟩
    refine ⟨b1, t1, as1, b2 ++ [.stop t], by simp, h1, fun t' ht' => ?_⟩
    simp only [List.mem_append, List.mem_singleton, Sax.stop.injEq] at ht'
    rcases ht' with ht' | rfl
    · exact h2 _ ht'
    · exact h

theorem started_single {w : ExtWorld F} {t : Str} {as : List (Str × Str)} :
    Started w [.start t as] ↔ lower t = py!"xesextension" ∧ ∃ uri b, dget py!"uri" as = some uri ∧ w.fetch uri = .data b := by
  constructor
  · rintro ⟨t', as', u, b, h, h1, h2, h3⟩
    simp only [List.mem_singleton, Sax.start.injEq] at h
    obtain ⟨rfl, rfl⟩ := h
    exact ⟨h1, u, b, h2, h3⟩
  · rintro ⟨h1, u, b, h2, h3⟩
    exact ⟨t, as, u, b, by simp, h1, h2, h3⟩

theorem attrValue_eq {as : List (Str × Str)} {k : Str} : attrValue as k = match dget k as with | some v => .ok v | none => .error .keyError := rfl

theorem defTag_some {t : Str} {d : DefKind} (h : defTag t = some d) : lower t = d.tagName := by
  unfold defTag at h
  split at h
  · rename_i e; cases h; exact e
  split at h
  · rename_i e; cases h; exact e
  split at h
  · rename_i e; cases h; exact e
  split at h
  · rename_i e; cases h; exact e
  split at h
  · rename_i e; cases h; exact e
  split at h
  · rename_i e; cases h; exact e
  cases h

theorem defTag_none {t : Str} (h : defTag t = none) : lower t ∉ defNames := by
  unfold defTag at h
  simp only [defNames, List.mem_cons, List.not_mem_nil, or_false, not_or]
  split at h
  · cases h
  split at h
  · cases h
  split at h
  · cases h
  split at h
  · cases h
  split at h
  · cases h
  split at h
  · cases h
  refine ⟨?_, ?_, ?_, ?_, ?_, ?_⟩ <;> assumption

theorem tagName_defNames (d : DefKind) : d.tagName ∈ defNames := by cases d <;> decide

/-- One element: either it has no fault and the state goes on, or it has the fault that is raised. -/
theorem startExt_step {w : ExtWorld F} {done : List Sax} {st : ExtSt F} (hi : ExtInv w done st) (t : Str) (as : List (Str × Str)) :
    match startExt w st t as with
    | .ok st' => (∀ e, ¬ ExtFault w done t as e) ∧ ExtInv w (done ++ [.start t as]) st'
    | .error e => ExtFault w done t as e := by
  have hd1 : py!"xesextension" ∉ groupNames ++ defNames := by decide
  have hd2 : py!"xesextension" ∉ defNames := by decide
  have hd3 : ∀ g ∈ groupNames, g ∉ defNames := by decide
  by_cases hx : lower t = py!"xesextension"
  · -- the root
    have nf : ∀ {e}, ExtFault w done t as e → (∃ k ∈ [py!"name", py!"prefix", py!"uri"], dget k as = none) ∨
        ∃ uri, dget py!"uri" as = some uri ∧ (w.urlParse uri = .error e ∨ ∃ u, w.urlParse uri = .ok u ∧ w.fetch uri = .raises e) := by
      intro e h
      cases h with
      | missing _ h1 h2 => exact .inl ⟨_, h1, h2⟩
      | uri _ _ _ h1 h2 => exact .inr ⟨_, h1, .inl h2⟩
      | fetch _ _ _ h1 h2 h3 => exact .inr ⟨_, h1, .inr ⟨_, h2, h3⟩⟩
      | unstarted h => rw [hx] at h; exact absurd h hd1
      | key h => rw [hx] at h; exact absurd h hd2
      | epoch h => rw [hx] at h; exact absurd h (by decide)
      | renamed h => rw [hx] at h; exact absurd h (by decide)
    simp only [startExt, hx, if_true, attrValue_eq]
    cases h1 : dget py!"name" as with
    | none => exact .missing hx (by simp) h1
    | some n =>
      cases h2 : dget py!"prefix" as with
      | none => exact .missing hx (by simp) h2
      | some p =>
        cases h3 : dget py!"uri" as with
        | none => exact .missing hx (by simp) h3
        | some uri =>
          have nm : ¬ ∃ k ∈ [py!"name", py!"prefix", py!"uri"], dget k as = none := by
            rintro ⟨k, hk, hn⟩
            simp only [List.mem_cons, List.not_mem_nil, or_false] at hk
            rcases hk with rfl | rfl | rfl
            · rw [h1] at hn; cases hn
            · rw [h2] at hn; cases hn
            · rw [h3] at hn; cases hn
          cases h4 : w.urlParse uri with
          | error e => simp only [bind, Except.bind, h4]; exact .uri hx h1 h2 h3 h4
          | ok u =>
            cases h5 : w.fetch uri with
            | raises e => simp only [bind, Except.bind, h4, h5]; exact .fetch hx h1 h2 h3 h4 h5
            | urlError =>
              simp only [bind, Except.bind, h4, h5]
              refine ⟨fun e h => ?_, ?_, ?_⟩
              · rcases nf h with h | ⟨uri', h6, h7⟩
                · exact nm h
                · rw [h3] at h6; cases h6
                  rcases h7 with h7 | ⟨_, _, h7⟩
                  · rw [h4] at h7; cases h7
                  · rw [h5] at h7; cases h7
              · rw [started_snoc, started_single, hi.started]
                refine ⟨.inl, fun h => h.elim id ?_⟩
                rintro ⟨_, uri', b, h6, h7⟩
                rw [h3] at h6; cases h6
                rw [h5] at h7; cases h7
              · rw [defining_start, hi.defining, hx]
                exact ⟨.inl, fun h => h.elim id fun h => absurd h hd2⟩
            | data b =>
              simp only [bind, Except.bind, h4, h5]
              refine ⟨fun e h => ?_, ?_, ?_⟩
              · rcases nf h with h | ⟨uri', h6, h7⟩
                · exact nm h
                · rw [h3] at h6; cases h6
                  rcases h7 with h7 | ⟨_, _, h7⟩
                  · rw [h4] at h7; cases h7
                  · rw [h5] at h7; cases h7
              · rw [started_snoc, started_single]
                exact ⟨fun _ => .inr ⟨hx, uri, b, h3, h5⟩, fun _ => by simp⟩
              · rw [defining_start, hx]
                exact ⟨fun h => .inl (hi.defining.1 h), fun h => h.elim (fun h => hi.defining.2 h) fun h => absurd h hd2⟩
  have nostart : ∀ st' : ExtSt F, (st'.ext ≠ none ↔ st.ext ≠ none) → (st'.ext ≠ none ↔ Started w (done ++ [.start t as])) := by
    intro st' h
    rw [h, started_snoc, started_single, hi.started]
    exact ⟨.inl, fun h => h.elim id fun h => absurd h.1 hx⟩
  by_cases hg : lower t ∈ groupNames
  · -- a group
    have nf : ∀ {e}, ExtFault w done t as e → ¬ Started w done ∧ e = .attributeError := by
      intro e h
      cases h with
      | missing h => exact absurd h hx
      | uri h => exact absurd h hx
      | fetch h => exact absurd h hx
      | unstarted _ h => exact ⟨h, rfl⟩
      | key h => exact absurd h (hd3 _ hg)
      | epoch h => rw [h] at hg; exact absurd hg (by decide)
      | renamed h => rw [h] at hg; exact absurd hg (by decide)
    have choose : ∀ sc, match st.choose sc with
        | .ok st' => (∀ e, ¬ ExtFault w done t as e) ∧ ExtInv w (done ++ [.start t as]) st'
        | .error e => ExtFault w done t as e := by
      intro sc
      unfold ExtSt.choose ExtSt.current
      cases he : st.ext with
      | none => exact .unstarted (List.mem_append_left _ hg) fun h => hi.started.2 h he
      | some x =>
        refine ⟨fun e h => (nf h).1 (hi.started.1 (by simp [he])), nostart _ (by simp [he]), ?_⟩
        rw [defining_start]
        exact ⟨fun h => .inl (hi.defining.1 h), fun h => h.elim (fun h => hi.defining.2 h) fun h => absurd h (hd3 _ hg)⟩
    simp only [groupNames, List.mem_cons, List.not_mem_nil, or_false] at hg
    rcases hg with h | h | h | h
    · simp only [startExt, h]; exact choose _
    · simp only [startExt, h]; exact choose _
    · simp only [startExt, h]; exact choose _
    · simp only [startExt, h]; exact choose _
  have hg' : lower t ≠ py!"log" ∧ lower t ≠ py!"trace" ∧ lower t ≠ py!"event" ∧ lower t ≠ py!"meta" := by
    simp only [groupNames, List.mem_cons, List.not_mem_nil, or_false, not_or] at hg; exact hg
  simp only [startExt, hx, hg'.1, hg'.2.1, hg'.2.2.1, hg'.2.2.2, if_false]
  cases hd : defTag t with
  | some d =>
    have ht := defTag_some hd
    have hm : lower t ∈ defNames := ht ▸ tagName_defNames d
    have hal : lower t ≠ py!"alias" := fun h => by rw [h] at hm; exact absurd hm (by decide)
    simp only [startDef, ExtSt.choose, ExtSt.current]
    cases he : st.ext with
    | none => exact .unstarted (List.mem_append_right _ hm) fun h => hi.started.2 h he
    | some x =>
      have hs : Started w done := hi.started.1 (by simp [he])
      simp only [bind, Except.bind, attrValue_eq]
      cases hk : dget py!"key" as with
      | none => exact .key hm hs hk
      | some k =>
        have good : ∀ v, defValue w st.drawn d = .ok v → (∀ e, ¬ ExtFault w done t as e) := by
          intro v hv e h
          cases h with
          | missing h => exact hx h
          | uri h => exact hx h
          | fetch h => exact hx h
          | unstarted _ h => exact h hs
          | key _ _ h => rw [hk] at h; cases h
          | epoch h _ _ h2 =>
            rw [ht] at h
            have : d = .date := by cases d <;> first | rfl | exact absurd h (by decide)
            subst this
            simp [defValue, h2, bind, Except.bind] at hv
          | renamed h => exact hal h
        cases hv : defValue w st.drawn d with
        | error e =>
          have : d = .date ∧ w.epoch = .error e := by
            cases d <;> simp only [defValue] at hv
            case date =>
              refine ⟨rfl, ?_⟩
              cases hw : w.epoch with
              | error e' => rw [hw] at hv; simpa [bind, Except.bind] using hv
              | ok y => rw [hw] at hv; simp [bind, Except.bind] at hv
            all_goals cases hv
          obtain ⟨rfl, hw⟩ := this
          exact .epoch ht hs hk hw
        | ok v =>
          refine ⟨good v hv, ?_, ?_⟩
          · apply nostart
            simp [ExtSt.addCurrent, he]
          · rw [defining_start]
            exact ⟨fun _ => .inr hm, fun _ => by simp [ExtSt.addCurrent]⟩
  | none =>
    have hm := defTag_none hd
    have nf : ∀ {e}, ExtFault w done t as e → lower t = py!"alias" ∧ Defining done ∧ ∃ k ∈ [py!"mapping", py!"name"], dget k as = none := by
      intro e h
      cases h with
      | missing h => exact absurd h hx
      | uri h => exact absurd h hx
      | fetch h => exact absurd h hx
      | unstarted h => exact absurd h (by simp [hg, hm])
      | key h => exact absurd h hm
      | epoch h => rw [h] at hm; exact absurd (by decide) hm
      | renamed h h1 h2 h3 => exact ⟨h, h1, _, h2, h3⟩
    have goes : ∀ names, (∀ e, ¬ ExtFault w done t as e) → (∀ e, ¬ ExtFault w done t as e) ∧ ExtInv w (done ++ [.start t as]) { st with names := names } := by
      intro names h
      refine ⟨h, nostart _ Iff.rfl, ?_⟩
      rw [defining_start]
      exact ⟨fun h => .inl (hi.defining.1 h), fun h => h.elim (fun h => hi.defining.2 h) fun h => absurd h hm⟩
    cases hc : st.cur with
    | none => exact goes st.names fun e h => hi.defining.2 (nf h).2.1 hc
    | some key =>
      have hdf : Defining done := hi.defining.1 (by simp [hc])
      simp only
      by_cases hal : lower t = py!"alias"
      · simp only [hal, if_true, attrValue_eq]
        cases h1 : dget py!"mapping" as with
        | none => exact .renamed hal hdf (by simp) h1
        | some m1 =>
          cases h2 : dget py!"name" as with
          | none => exact .renamed hal hdf (by simp) h2
          | some m2 =>
            have := goes (st.names.register m1 (.str key) (.str m2)) fun e h => by
              obtain ⟨_, _, k, hk, hn⟩ := nf h
              simp only [List.mem_cons, List.not_mem_nil, or_false] at hk
              rcases hk with rfl | rfl
              · rw [h1] at hn; cases hn
              · rw [h2] at hn; cases hn
            rw [hc] at this
            simpa [bind, Except.bind] using this
      · simp only [hal, if_false]
        exact goes st.names fun e h => hal (nf h).1

theorem stopExt_step {w : ExtWorld F} {done : List Sax} {st : ExtSt F} (hi : ExtInv w done st) (t : Str) : ExtInv w (done ++ [.stop t]) (stopExt st t) := by
  have hs : Started w (done ++ [.stop t]) ↔ Started w done := by
    rw [started_snoc]
    refine ⟨fun h => h.elim id ?_, .inl⟩
    rintro ⟨t', as, u, b, h, _⟩
    simp at h
  unfold stopExt
  split
  · rename_i h
    refine ⟨hi.started.trans hs.symm, ?_⟩
    rw [defining_stop]
    exact ⟨fun h => absurd rfl h, fun h' => absurd h h'.2⟩
  · rename_i h
    refine ⟨hi.started.trans hs.symm, ?_⟩
    rw [defining_stop]
    exact ⟨fun h' => ⟨hi.defining.1 h', h⟩, fun h' => hi.defining.2 h'.1⟩

/-- The elements from here on: none has a fault, or the first fault is raised. -/
theorem runExt_faults {w : ExtWorld F} : ∀ (rest done : List Sax) (st : ExtSt F), ExtInv w done st →
    match runExt w st rest with
    | .ok st' => (∀ b t as a e, rest = b ++ .start t as :: a → ¬ ExtFault w (done ++ b) t as e) ∧ ExtInv w (done ++ rest) st'
    | .error e => ∃ b t as a, rest = b ++ .start t as :: a ∧ ExtFault w (done ++ b) t as e ∧
        ∀ b' t' as' a' e', b = b' ++ .start t' as' :: a' → ¬ ExtFault w (done ++ b') t' as' e'
  | [], done, st, hi => by
    refine ⟨fun b t as a e h => ?_, by simpa using hi⟩
    simp at h
  | .stop t :: rest, done, st, hi => by
    have ih := runExt_faults rest (done ++ [.stop t]) _ (stopExt_step hi t)
    simp only [runExt]
    cases hr : runExt w (stopExt st t) rest with
    | ok st' =>
      rw [hr] at ih
      refine ⟨fun b t' as a e h => ?_, by simpa using ih.2⟩
      cases b with
      | nil => simp at h
      | cons x b =>
        simp only [List.cons_append, List.cons.injEq] at h
        have := ih.1 b t' as a e h.2
        rwa [List.append_assoc, List.singleton_append, h.1] at this
    | error e =>
      rw [hr] at ih
      obtain ⟨b, t', as, a, h1, h2, h3⟩ := ih
      refine ⟨.stop t :: b, t', as, a, by simp [h1], by simpa using h2, fun b' t'' as' a' e' h => ?_⟩
      cases b' with
      | nil => simp at h
      | cons x b' =>
        simp only [List.cons_append, List.cons.injEq] at h
        have := h3 b' t'' as' a' e' h.2
        rwa [List.append_assoc, List.singleton_append, h.1] at this
  | .start t as :: rest, done, st, hi => by
    have hs := startExt_step hi t as
    simp only [runExt]
    cases he : startExt w st t as with
    | error e =>
      rw [he] at hs
      refine ⟨[], t, as, rest, rfl, by simpa using hs, fun b' t' as' a' e' h => ?_⟩
      simp at h
    | ok st1 =>
      rw [he] at hs
      have ih := runExt_faults rest (done ++ [.start t as]) _ hs.2
      simp only [bind, Except.bind]
      cases hr : runExt w st1 rest with
      | ok st' =>
        rw [hr] at ih
        refine ⟨fun b t' as' a e h => ?_, by simpa using ih.2⟩
        cases b with
        | nil =>
          simp only [List.nil_append, List.cons.injEq, Sax.start.injEq] at h
          obtain ⟨⟨rfl, rfl⟩, _⟩ := h
          simpa using hs.1 e
        | cons x b =>
          simp only [List.cons_append, List.cons.injEq] at h
          have := ih.1 b t' as' a e h.2
          rwa [List.append_assoc, List.singleton_append, h.1] at this
      | error e =>
        rw [hr] at ih
        obtain ⟨b, t', as', a, h1, h2, h3⟩ := ih
        refine ⟨.start t as :: b, t', as', a, by simp [h1], by simpa using h2, fun b' t'' as'' a' e' h => ?_⟩
        cases b' with
        | nil =>
          simp only [List.nil_append, List.cons.injEq, Sax.start.injEq] at h
          obtain ⟨⟨rfl, rfl⟩, _⟩ := h
          simpa using hs.1 e'
        | cons x b' =>
          simp only [List.cons_append, List.cons.injEq] at h
          have := h3 b' t'' as'' a' e' h.2
          rwa [List.append_assoc, List.singleton_append, h.1] at this

theorem extInv_init (w : ExtWorld F) (names : GlobalMap) : ExtInv w [] (.init F names) := by
  refine ⟨⟨fun h => absurd rfl h, ?_⟩, ⟨fun h => absurd rfl h, ?_⟩⟩
  · rintro ⟨_, _, _, _, h, _⟩; cases h
  · rintro ⟨_, _, _, _, h, _⟩; simp at h

/-- C156: a definition, whatever its elements are, is read exactly if no element has a fault; then None is returned exactly if no extension was
started. -/
theorem c156_read (w : ExtWorld F) (names : GlobalMap) (doc : List Sax) :
    ((∃ r, parseExt w names doc = .ok r) ↔ NoFault w doc) ∧ ∀ x names', parseExt w names doc = .ok (x, names') → (x = none ↔ ¬ Started w doc) := by
  have h := runExt_faults doc [] _ (extInv_init w names)
  unfold parseExt
  cases hr : runExt w (.init F names) doc with
  | ok st =>
    rw [hr] at h
    refine ⟨⟨fun _ b t as a e hd => by simpa using h.1 b t as a e hd, fun _ => ⟨_, rfl⟩⟩, fun x names' hx => ?_⟩
    simp only [bind, Except.bind, Except.ok.injEq, Prod.mk.injEq] at hx
    rw [← hx.1]
    have := h.2.started
    rw [List.nil_append] at this
    rw [← this]
    cases st.ext <;> simp
  | error e =>
    rw [hr] at h
    obtain ⟨b, t, as, a, h1, h2, _⟩ := h
    refine ⟨⟨fun ⟨r, hr⟩ => by simp [bind, Except.bind] at hr, fun hn => absurd (by simpa using h2) (hn b t as a e h1)⟩, fun x names' hx => by simp [bind, Except.bind] at hx⟩

/-- C156: otherwise the first fault decides which exception is raised. -/
theorem c156_refused (w : ExtWorld F) (names : GlobalMap) (doc : List Sax) (e : PyErr) : parseExt w names doc = .error e →
    ∃ before t as after, doc = before ++ .start t as :: after ∧ ExtFault w before t as e ∧ NoFault w before := by
  have h := runExt_faults doc [] _ (extInv_init w names)
  unfold parseExt
  cases hr : runExt w (.init F names) doc with
  | ok st => intro hx; simp [bind, Except.bind] at hx
  | error e' =>
    rw [hr] at h
    intro hx
    simp only [bind, Except.bind, Except.error.injEq] at hx
    subst hx
    obtain ⟨b, t, as, a, h1, h2, h3⟩ := h
    exact ⟨b, t, as, a, h1, by simpa using h2, fun b' t' as' a' e' hb => by simpa using h3 b' t' as' a' e' hb⟩

/-- An element has one fault only, so the exception is determined. -/
theorem extFault_unique {w : ExtWorld F} {before : List Sax} {t : Str} {as : List (Str × Str)} {e e' : PyErr} (h : ExtFault w before t as e)
    (h' : ExtFault w before t as e') : e = e' := by
  have hd1 : py!"xesextension" ∉ groupNames ++ defNames := by decide
  have hd2 : py!"xesextension" ∉ defNames := by decide
  have some1 : ∀ {k n p u : Str}, k ∈ [py!"name", py!"prefix", py!"uri"] → dget k as = none → dget py!"name" as = some n →
      dget py!"prefix" as = some p → dget py!"uri" as = some u → False := by
    intro k n p u hk hn h1 h2 h3
    simp only [List.mem_cons, List.not_mem_nil, or_false] at hk
    rcases hk with rfl | rfl | rfl
    · rw [h1] at hn; cases hn
    · rw [h2] at hn; cases hn
    · rw [h3] at hn; cases hn
  have root : lower t = py!"xesextension" → lower t ∉ groupNames ++ defNames ∧ lower t ∉ defNames ∧ lower t ≠ py!"date" ∧ lower t ≠ py!"alias" :=
    fun h => by rw [h]; exact ⟨hd1, hd2, by decide, by decide⟩
  have al : lower t = py!"alias" → lower t ∉ groupNames ++ defNames ∧ lower t ∉ defNames ∧ lower t ≠ py!"date" ∧ lower t ≠ py!"xesextension" :=
    fun h => by rw [h]; decide
  cases h with
  | missing r m n =>
    cases h' with
    | missing => rfl
    | uri _ a b c => exact (some1 m n a b c).elim
    | fetch _ a b c => exact (some1 m n a b c).elim
    | unstarted h => exact absurd h (root r).1
    | key h => exact absurd h (root r).2.1
    | epoch h => exact absurd h (root r).2.2.1
    | renamed h => exact absurd h (root r).2.2.2
  | uri r a b c d =>
    cases h' with
    | missing _ m n => exact (some1 m n a b c).elim
    | uri _ _ _ c' d' => rw [c] at c'; cases c'; rw [d] at d'; cases d'; rfl
    | fetch _ _ _ c' d' => rw [c] at c'; cases c'; rw [d] at d'; cases d'
    | unstarted h => exact absurd h (root r).1
    | key h => exact absurd h (root r).2.1
    | epoch h => exact absurd h (root r).2.2.1
    | renamed h => exact absurd h (root r).2.2.2
  | fetch r a b c d f =>
    cases h' with
    | missing _ m n => exact (some1 m n a b c).elim
    | uri _ _ _ c' d' => rw [c] at c'; cases c'; rw [d] at d'; cases d'
    | fetch _ _ _ c' _ f' => rw [c] at c'; cases c'; rw [f] at f'; cases f'; rfl
    | unstarted h => exact absurd h (root r).1
    | key h => exact absurd h (root r).2.1
    | epoch h => exact absurd h (root r).2.2.1
    | renamed h => exact absurd h (root r).2.2.2
  | unstarted g n =>
    cases h' with
    | missing r => exact absurd g (root r).1
    | uri r => exact absurd g (root r).1
    | fetch r => exact absurd g (root r).1
    | unstarted => rfl
    | key _ h => exact absurd h n
    | epoch _ h => exact absurd h n
    | renamed h => exact absurd g (al h).1
  | key g st n =>
    cases h' with
    | missing r => exact absurd g (root r).2.1
    | uri r => exact absurd g (root r).2.1
    | fetch r => exact absurd g (root r).2.1
    | unstarted _ h => exact absurd st h
    | key => rfl
    | epoch _ _ h => rw [n] at h; cases h
    | renamed h => exact absurd g (al h).2.1
  | epoch g st k n =>
    cases h' with
    | missing r => exact absurd g (root r).2.2.1
    | uri r => exact absurd g (root r).2.2.1
    | fetch r => exact absurd g (root r).2.2.1
    | unstarted _ h => exact absurd st h
    | key _ _ h => rw [k] at h; cases h
    | epoch _ _ _ h => rw [n] at h; cases h; rfl
    | renamed h => exact absurd g (al h).2.2.1
  | renamed g =>
    cases h' with
    | missing r => exact absurd g (root r).2.2.2
    | uri r => exact absurd g (root r).2.2.2
    | fetch r => exact absurd g (root r).2.2.2
    | unstarted h => exact absurd h (al g).1
    | key h => exact absurd h (al g).2.1
    | epoch h => exact absurd h (al g).2.2.1
    | renamed => rfl


/-- C156: the exception is that of the first fault. -/
theorem c156_exact (w : ExtWorld F) (names : GlobalMap) (doc : List Sax) (e : PyErr) : parseExt w names doc = .error e ↔
    ∃ before t as after, doc = before ++ .start t as :: after ∧ ExtFault w before t as e ∧ NoFault w before := by
  refine ⟨c156_refused w names doc e, ?_⟩
  rintro ⟨b, t, as, a, h, hf, hn⟩
  cases hp : parseExt w names doc with
  | ok r => exact absurd hf ((c156_read w names doc).1.1 ⟨r, hp⟩ b t as a e h)
  | error e' =>
    obtain ⟨b', t', as', a', h', hf', hn'⟩ := c156_refused w names doc e' hp
    rw [h] at h'
    rcases List.append_eq_append_iff.1 h' with ⟨c, hc, hd⟩ | ⟨c, hc, hd⟩
    · cases c with
      | nil =>
        simp only [List.append_nil, List.nil_append, List.cons.injEq, Sax.start.injEq] at hc hd
        obtain ⟨⟨rfl, rfl⟩, _⟩ := hd
        subst hc
        rw [extFault_unique hf hf']
      | cons x c =>
        simp only [List.cons_append, List.cons.injEq] at hd
        obtain ⟨rfl, _⟩ := hd
        exact absurd hf (hn' b t as c e hc)
    · cases c with
      | nil =>
        simp only [List.append_nil, List.nil_append, List.cons.injEq, Sax.start.injEq] at hc hd
        obtain ⟨⟨rfl, rfl⟩, _⟩ := hd
        subst hc
        rw [extFault_unique hf hf']
      | cons x c =>
        simp only [List.cons_append, List.cons.injEq] at hd
        obtain ⟨rfl, _⟩ := hd
        exact absurd hf' (hn b' t' as' c e' hc)

/-! ## Files -/

theorem skipBom_normEol (s : Str) : skipBom (normEol s) = normEol (skipBom s) := by
  cases s with
  | nil => rfl
  | cons c r =>
    by_cases h : c.toNat = 0xFEFF
    · have hc : c ≠ '\r' := by rintro rfl; exact absurd h (by decide)
      rw [normEol_cons hc]
      simp [skipBom, h]
    · have h1 : skipBom (c :: r) = c :: r := by simp [skipBom, h]
      rw [h1]
      cases hn : normEol (c :: r) with
      | nil => rfl
      | cons d q =>
        have : d.toNat ≠ 0xFEFF := by
          by_cases hc : c = '\r'
          · subst hc
            have : d = '\n' := by
              cases r with
              | nil => simp [normEol] at hn; exact hn.1.symm
              | cons y r =>
                by_cases hy : y = '\n'
                · subst hy; simp [normEol] at hn; exact hn.1.symm
                · rw [normEol] at hn
                  · exact (List.cons.inj hn).1.symm
                  · intro s' h; exact hy (List.cons.inj h).1
            rw [this]; decide
          · rw [normEol_cons hc] at hn
            rw [← (List.cons.inj hn).1]; exact h
        simp [skipBom, this]

/-- C156: only the elements of a file and their attributes count, not its layout. -/
theorem c156_text (w : ExtWorld F) (names : GlobalMap) {s : Str} {es : List MSax} (hc : ∀ c ∈ s, isXmlChar c = true) (h : WfDoc (normEol s) es) :
    parseExtText w names s = parseExt w names (xesEvents es) := by
  simp only [parseExtText, c134_reads hc h, bind, Except.bind]

/-- C156: a text that is not XML is refused. -/
theorem c156_malformed (w : ExtWorld F) (names : GlobalMap) {s : Str} {e : PyErr} (h : readXml s = .error e) : parseExtText w names s = .error e := by
  simp only [parseExtText, h, bind, Except.bind]

/-- C156: a file in any encoding, with any line ends, with or without a byte order mark. -/
theorem c156_file (w : ExtWorld F) {codec : Codec} {named : Str → Except PyErr Codec} {look : Str → AtPath} {names : GlobalMap} {path s : Str} {b : List Nat} (hl : look path = .file b)
    (hd : codec.dec b = some s) : parseExtPath w codec named look names path = parseExtText w names (skipBom s) := by
  simp only [parseExtPath, hl, readPlain, hd, bind, Except.bind, skipBom_normEol, parseExtText, readXml_eol]

/-- ... that cannot be decoded. -/
theorem c156_undecodable (w : ExtWorld F) {codec : Codec} {named : Str → Except PyErr Codec} {look : Str → AtPath} {names : GlobalMap} {path : Str} {b : List Nat} (hl : look path = .file b)
    (hd : codec.dec b = none) : parseExtPath w codec named look names path = .error .valueError := by
  simp only [parseExtPath, hl, readPlain, hd, bind, Except.bind]

/-- C156: a folder is no extension. -/
theorem c156_folder (w : ExtWorld F) {codec : Codec} {named : Str → Except PyErr Codec} {look : Str → AtPath} {names : GlobalMap} {path : Str} (hl : look path = .folder) :
    parseExtPath w codec named look names path = .ok (none, names) := by
  simp only [parseExtPath, hl]

/-- C156: what is neither is asked for on the web.  The exceptions of that are not caught, while those at the address inside the definition are. -/
theorem c156_web_refused (w : ExtWorld F) {codec : Codec} {named : Str → Except PyErr Codec} {look : Str → AtPath} {names : GlobalMap} {path : Str} (hl : look path = .nothing) :
    (w.fetch path = .urlError → parseExtPath w codec named look names path = .error .other) ∧
      ∀ e, w.fetch path = .raises e → parseExtPath w codec named look names path = .error e :=
  ⟨fun h => by simp only [parseExtPath, hl, h], fun e h => by simp only [parseExtPath, hl, h]⟩

/-- C156: an address gives what a file with the same bytes, in UTF-8, gives (other encodings: C182). -/
theorem c156_web (w : ExtWorld F) {codec : Codec} {named : Str → Except PyErr Codec} {look : Str → AtPath} {names : GlobalMap} {path s : Str} {b : List Nat} (hl : look path = .nothing)
    (hf : w.fetch path = .data b) (hu : PlainUtf8 b) (hd : utf8Decode b = some s) : parseExtPath w codec named look names path = parseExtText w names (skipBom s) := by
  simp only [parseExtPath, hl, hf, readBinary_utf8 hu, hd, Option.map_some, orMalformed, bind, Except.bind]

/-! ## Examples -/

end

/-- The start of a definition. -/
def costRoot : Sax := .start py!"xesextension" [(py!"name", py!"Cost"), (py!"prefix", py!"cost"), (py!"uri", py!"http://x/cost.xesext")]

/-- An alias after the end of its definition is not looked at, an alias inside has to be complete. -/
example : (∃ r, parseExt onlineWorld .init [costRoot, .start py!"string" [(py!"key", py!"a")], .stop py!"string", .start py!"alias" []] = .ok r) ∧
    parseExt onlineWorld .init [costRoot, .start py!"string" [(py!"key", py!"a")], .start py!"alias" [(py!"mapping", py!"EN")]] = .error .keyError :=
  ⟨⟨_, rfl⟩, rfl⟩

/-- The second is a fault of the alias: the third element. -/
example : ExtFault onlineWorld [costRoot, .start py!"string" [(py!"key", py!"a")]] py!"alias" [(py!"mapping", py!"EN")] .keyError :=
  .renamed rfl ⟨[costRoot], _, _, [], rfl, by decide, fun t' h => by cases h⟩ (k := py!"name") (by decide) rfl

/-- A document without an extension, and one whose extension has no answer. -/
example : NoFault onlineWorld [.start py!"html" [], .stop py!"html"] ∧
    ¬ NoFault { onlineWorld with fetch := fun _ => .urlError } [costRoot, .start py!"Event" [], .stop py!"Event"] := by
  refine ⟨(c156_read _ .init _).1.1 ⟨_, rfl⟩, fun h => ?_⟩
  obtain ⟨r, hr⟩ := (c156_read _ .init _).1.2 h
  exact absurd (hr.symm.trans (show _ = .error .attributeError from rfl)) (by simp)

/-- A definition file with a byte order mark, a declaration, a comment and line ends of Windows. -/
def costFile : Str := Char.ofNat 0xFEFF :: py!"<?xml version=\"1.0\"?>\r\n<!-- costs -->\r\n<xesextension name='Cost' prefix=\"cost\" uri=\"http://x/c\"><log>\r\n<String key='currency'><alias mapping=\"EN\" name=\"Currency\"/></String></log></xesextension>\r\n"

/-- It is read alike from a file and from the web; no folder or missing page is. -/
example : (((parseExtPath onlineWorld utf8Codec plainZip.named (fun _ => .file (utf8 costFile)) .init py!"c").toOption.bind Prod.fst).map
      (fun x => (x.ext.name, x.defined.1.map (fun a => (a.kind, a.key)))) = some (py!"Cost", [(.literal, py!"cost:currency")])) ∧
    (((parseExtPath { onlineWorld with fetch := fun _ => .data (utf8 costFile) } utf8Codec plainZip.named (fun _ => .nothing) .init py!"c").toOption.bind Prod.fst).map
      (fun x => (x.ext.name, x.defined.1.map (fun a => (a.kind, a.key)))) = some (py!"Cost", [(.literal, py!"cost:currency")])) ∧
    ((parseExtPath onlineWorld utf8Codec plainZip.named (fun _ => .folder) .init py!"c").toOption.map fun r => r.1.isNone) = some true ∧
    ((parseExtPath onlineWorld utf8Codec plainZip.named (fun _ => .nothing) .init py!"c").toOption.map fun r => r.1.isNone) = none := by
  refine ⟨?_, ?_, ?_, ?_⟩ <;> decide +kernel

/-- The text of the file is XML in the sense of `c156_text`. -/
example : ∃ es, readXml (skipBom costFile) = .ok es ∧ (xesEvents es).length = 8 := by
  cases h : readXml (skipBom costFile) with
  | ok es =>
    refine ⟨es, rfl, ?_⟩
    have : ((readXml (skipBom costFile)).toOption.map fun es => (xesEvents es).length) = some 8 := by decide +kernel
    rw [h] at this
    simpa [Except.toOption] using this
  | error e =>
    have : (readXml (skipBom costFile)).isOk = true := by decide +kernel
    rw [h] at this; cases this

end Opy
