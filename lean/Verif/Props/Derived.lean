import Verif.Props.Reads
set_option linter.unusedSectionVars false
namespace Opy

/-! # What the derived readers of the lifecycle and semantic extensions answer (C158) -/

section
variable {F : Type} [PyFloat F]

/-! ## Spec -/

/-- `f` answers by the attribute under `key` alone: `missing` without one, `ofText` for a text, `ofNone` for no value; any other value, a list and a
container raise AttributeError. -/
structure Answers {R : Type} (f : AttrMap F → Except PyErr R) (key : Str) (missing ofNone : Except PyErr R) (ofText : Str → Except PyErr R → Prop) : Prop where
  absent : ∀ m, key ∉ m.map (·.1) → f m = missing
  text : ∀ m k key' e s sub c, k ≠ .list → k ≠ .container → dget key m = some (.mk k key' e (.str s) sub c) → ofText s (f m)
  nothing : ∀ m k key' e sub c, k ≠ .list → k ≠ .container → dget key m = some (.mk k key' e .none sub c) → f m = ofNone
  other : ∀ m k key' e v sub c, k ≠ .list → k ≠ .container → (∀ s, v ≠ .str s) → v ≠ .none → dget key m = some (.mk k key' e v sub c) →
    f m = .error .attributeError
  collection : ∀ m k key' e v sub c, k = .list ∨ k = .container → dget key m = some (.mk k key' e v sub c) → f m = .error .attributeError

/-- The list is what the text consists of between the two characters backslash and s. -/
def RefPieces (s : Str) (ps : List Str) : Prop := ps ≠ [] ∧ join py!"\\s" ps = s ∧ ∀ p ∈ ps, ∀ a b, p ≠ a ++ py!"\\s" ++ b

/-! ## Proof -/

theorem splitGo_head {sep : Str} (hsep : sep ≠ []) {k : Nat} {s h : Str} {t : List Str} (e : splitGo sep k s = h :: t) : ∃ r, s.drop k = h ++ r := by
  have := join_splitGo hsep k s
  rw [e] at this
  cases t with
  | nil => exact ⟨[], by rw [← this]; simp [join]⟩
  | cons b r => exact ⟨sep ++ join sep (b :: r), by rw [← this]; simp [join]⟩

theorem splitGo_pieces : ∀ (k : Nat) (s : Str), ∀ p ∈ splitGo py!"\\s" k s, ∀ a b, p ≠ a ++ py!"\\s" ++ b
  | _, [], p, hp, a, b, e => by
    simp only [splitGo, List.mem_singleton] at hp
    subst hp
    have := congrArg List.length e
    simp at this
  | k + 1, _ :: xs, p, hp, a, b, e => by
    simp only [splitGo] at hp
    exact splitGo_pieces k xs p hp a b e
  | 0, x :: xs, p, hp, a, b, e => by
    simp only [splitGo] at hp
    split at hp
    · rcases List.mem_cons.1 hp with rfl | hp
      · have := congrArg List.length e
        simp at this
      · exact splitGo_pieces _ xs p hp a b e
    · rename_i hn
      cases hr : splitGo py!"\\s" 0 xs with
      | nil => exact splitGo_ne_nil _ _ _ hr
      | cons h t =>
        rw [hr] at hp
        rcases List.mem_cons.1 hp with rfl | hp
        · cases a with
          | nil =>
            obtain ⟨r, hh⟩ := splitGo_head (by simp) hr
            simp only [List.nil_append, List.cons_append, List.cons.injEq] at e
            obtain ⟨rfl, rfl⟩ := e
            simp only [List.drop_zero] at hh
            subst hh
            exact hn (by simp)
          | cons c a =>
            simp only [List.cons_append, List.cons.injEq] at e
            exact splitGo_pieces 0 xs h (by rw [hr]; simp) a b e.2
        · exact splitGo_pieces 0 xs p (by rw [hr]; simp [hp]) a b e

theorem splitStr_pieces (s : Str) : RefPieces s (splitStr py!"\\s" s) :=
  ⟨splitGo_ne_nil _ _ _, join_splitStr (by simp) s, splitGo_pieces 0 s⟩

/-- Two lists of pieces of the same text are the same. -/
theorem pieces_unique : ∀ {s : Str} {ps qs : List Str}, RefPieces s ps → RefPieces s qs → ps = qs := by
  have cut : ∀ (p q : Str) (x y : Str), (∀ a b, p ≠ a ++ py!"\\s" ++ b) → (∀ a b, q ≠ a ++ py!"\\s" ++ b) →
      p ++ '\\' :: 's' :: x = q ++ '\\' :: 's' :: y → p = q := by
    intro p q x y hp hq e
    rcases List.append_eq_append_iff.1 e with ⟨c, h1, h2⟩ | ⟨c, h1, h2⟩
    · match c with
      | [] => simpa using h1.symm
      | [d] =>
        simp only [List.cons_append, List.nil_append, List.cons.injEq] at h2
        exact absurd h2.2.1 (by decide)
      | d :: d' :: c =>
        simp only [List.cons_append, List.cons.injEq] at h2
        obtain ⟨rfl, rfl, _⟩ := h2
        exact absurd (by simp [h1]) (hq p c)
    · match c with
      | [] => simpa using h1
      | [d] =>
        simp only [List.cons_append, List.nil_append, List.cons.injEq] at h2
        exact absurd h2.2.1 (by decide)
      | d :: d' :: c =>
        simp only [List.cons_append, List.cons.injEq] at h2
        obtain ⟨rfl, rfl, _⟩ := h2
        exact absurd (by simp [h1]) (hp q c)
  have all : ∀ (ps qs : List Str) (s : Str), RefPieces s ps → RefPieces s qs → ps = qs := by
    intro ps
    induction ps with
    | nil => intro qs s h; exact absurd rfl h.1
    | cons p ps ih =>
      intro qs s h h'
      match qs, h' with
      | [], h' => exact absurd rfl h'.1
      | q :: qs, h' =>
        obtain ⟨_, e, hn⟩ := h
        obtain ⟨_, e', hn'⟩ := h'
        have np := hn p (by simp)
        have nq := hn' q (by simp)
        cases ps with
        | nil =>
          cases qs with
          | nil => simp only [join] at e e'; rw [e, e']
          | cons q' qs =>
            simp only [join] at e e'
            exact absurd (e.trans e'.symm) (np q _)
        | cons p' ps =>
          cases qs with
          | nil =>
            simp only [join] at e e'
            exact absurd (e'.trans e.symm) (nq p _)
          | cons q' qs =>
            simp only [join, List.append_assoc, List.cons_append, List.nil_append] at e e'
            have := cut p q _ _ np nq (e.trans e'.symm)
            subst this
            have e2 := List.append_cancel_left (e.trans e'.symm)
            simp only [List.cons.injEq, true_and] at e2
            rw [ih (q' :: qs) _ ⟨by simp, rfl, fun r hr => hn r (by simp [List.mem_cons.1 hr])⟩
              ⟨by simp, e2.symm, fun r hr => hn' r (by simp [List.mem_cons.1 hr])⟩]
  exact @fun s ps qs h h' => all ps qs s h h'

theorem notColl {k : Kind} (h1 : k ≠ .list) (h2 : k ≠ .container) : k.isCollection = false := by
  cases k <;> first | rfl | exact absurd rfl h1 | exact absurd rfl h2

theorem isColl {k : Kind} (h : k = .list ∨ k = .container) : k.isCollection = true := by rcases h with rfl | rfl <;> rfl

/-- C158: uses_standard_model is true exactly for a text that is `standard` up to white space around it. -/
theorem c158_model : Answers (F := F) usesStandardModel py!"lifecycle:model" (.ok false) (.ok false) fun s r => r = .ok (decide (strip s = py!"standard")) := by
  refine ⟨fun m h => ?_, fun m k key' e s sub c h1 h2 hd => ?_, fun m k key' e sub c h1 h2 hd => ?_, fun m k key' e v sub c h1 h2 hv hn hd => ?_,
    fun m k key' e v sub c hk hd => ?_⟩
  · simp only [usesStandardModel, extractModel, extractOr, dget_eq_none.2 h, bind, Except.bind]
  · simp only [usesStandardModel, extractModel, extractOr, hd, getValue, Attr.kind, Attr.val, notColl h1 h2, Bool.false_eq_true, if_false, bind, Except.bind]
    congr 1
    rw [Bool.eq_iff_iff]; simp
  · simp only [usesStandardModel, extractModel, extractOr, hd, getValue, Attr.kind, Attr.val, notColl h1 h2, Bool.false_eq_true, if_false, bind, Except.bind]
  · simp only [usesStandardModel, extractModel, extractOr, hd, getValue, Attr.kind, Attr.val, notColl h1 h2, Bool.false_eq_true, if_false, bind, Except.bind]
  · simp only [usesStandardModel, extractModel, extractOr, hd, getValue, Attr.kind, isColl hk, if_true, bind, Except.bind]

/-- C158: extract_standard_transition gives the transition of the standard model that the text names, whatever the case and the white space around it,
and `unknown` for other texts. -/
theorem c158_transition : Answers (F := F) extractStandardTransition py!"lifecycle:transition" (.ok none) (.ok none) fun s r =>
    r = .ok (some (if pyLower (strip s) ∈ transitionNames then pyLower (strip s) else py!"unknown")) := by
  refine ⟨fun m h => ?_, fun m k key' e s sub c h1 h2 hd => ?_, fun m k key' e sub c h1 h2 hd => ?_, fun m k key' e v sub c h1 h2 hv hn hd => ?_,
    fun m k key' e v sub c hk hd => ?_⟩
  · simp only [extractStandardTransition, extractTransition, extractOr, dget_eq_none.2 h, bind, Except.bind]
  · simp only [extractStandardTransition, extractTransition, extractOr, hd, getValue, Attr.kind, Attr.val, notColl h1 h2, Bool.false_eq_true, if_false, bind, Except.bind]
    split
    · rename_i hm; rw [(c63_decode s).1 hm]
    · rename_i hm; rw [(c63_decode s).2 hm]
  · simp only [extractStandardTransition, extractTransition, extractOr, hd, getValue, Attr.kind, Attr.val, notColl h1 h2, Bool.false_eq_true, if_false, bind, Except.bind]
  · simp only [extractStandardTransition, extractTransition, extractOr, hd, getValue, Attr.kind, Attr.val, notColl h1 h2, Bool.false_eq_true, if_false, bind, Except.bind]
  · simp only [extractStandardTransition, extractTransition, extractOr, hd, getValue, Attr.kind, isColl hk, if_true, bind, Except.bind]

/-- C158: extract_model_references gives the pieces of the lower-case text between the two characters backslash and s. -/
theorem c158_references : Answers (F := F) extractModelReferences py!"semantic:modelReference" (.ok []) (.error .attributeError) fun s r =>
    ∃ ps, r = .ok ps ∧ RefPieces (pyLower s) ps := by
  refine ⟨fun m h => ?_, fun m k key' e s sub c h1 h2 hd => ?_, fun m k key' e sub c h1 h2 hd => ?_, fun m k key' e v sub c h1 h2 hv hn hd => ?_,
    fun m k key' e v sub c hk hd => ?_⟩
  · simp only [extractModelReferences, dget_eq_none.2 h]
  · simp only [extractModelReferences, hd, getValue, Attr.kind, Attr.val, notColl h1 h2, Bool.false_eq_true, if_false, bind, Except.bind]
    exact ⟨_, rfl, by rw [splitStr_lower (by simp)]; exact splitStr_pieces _⟩
  · simp only [extractModelReferences, hd, getValue, Attr.kind, Attr.val, notColl h1 h2, Bool.false_eq_true, if_false, bind, Except.bind]
  · simp only [extractModelReferences, hd, getValue, Attr.kind, Attr.val, notColl h1 h2, Bool.false_eq_true, if_false, bind, Except.bind]
  · simp only [extractModelReferences, hd, getValue, Attr.kind, isColl hk, if_true, bind, Except.bind]

/-- C158: extract_model_reference_uris raises when the references cannot be read, and else what urlparse raises first; otherwise it gives the parsed
references. -/
theorem c158_uris {U : Type} (L : UriLib U) (m : AttrMap F) :
    (∀ e, extractModelReferences m = .error e → extractModelReferenceUris L m = .error e) ∧
    (∀ refs us, extractModelReferences m = .ok refs → (extractModelReferenceUris L m = .ok us ↔ refs.map L.urlparse = us.map .ok)) ∧
    ∀ refs e, extractModelReferences m = .ok refs → (extractModelReferenceUris L m = .error e ↔
      ∃ before r after, ∃ us : List U, refs = before ++ r :: after ∧ before.map L.urlparse = us.map .ok ∧ L.urlparse r = .error e) := by
  have okS : ∀ (refs : List Str) us, refs.mapM L.urlparse = .ok us ↔ refs.map L.urlparse = us.map .ok := by
    intro refs
    induction refs with
    | nil => intro us; cases us <;> simp [pure, Except.pure]
    | cons r refs ih =>
      intro us
      rw [List.mapM_cons, bind_ok]
      constructor
      · rintro ⟨u, h1, h2⟩
        rw [bind_ok] at h2
        obtain ⟨us', h3, h4⟩ := h2
        simp only [pure, Except.pure, Except.ok.injEq] at h4
        subst h4
        simp [h1, (ih us').1 h3]
      · intro h
        cases us with
        | nil => simp at h
        | cons u us =>
          simp only [List.map_cons, List.cons.injEq] at h
          exact ⟨u, h.1, by rw [bind_ok]; exact ⟨us, (ih us).2 h.2, rfl⟩⟩
  have errS : ∀ (refs : List Str) e, refs.mapM L.urlparse = .error e ↔
      ∃ before r after, ∃ us : List U, refs = before ++ r :: after ∧ before.map L.urlparse = us.map .ok ∧ L.urlparse r = .error e := by
    intro refs
    induction refs with
    | nil => intro e; simp [pure, Except.pure]
    | cons r refs ih =>
      intro e
      rw [List.mapM_cons]
      cases hr : L.urlparse r with
      | error e' =>
        simp only [bind, Except.bind, Except.error.injEq]
        constructor
        · rintro rfl; exact ⟨[], r, refs, [], rfl, rfl, hr⟩
        · rintro ⟨b, r', a, us, h1, h2, h3⟩
          cases b with
          | nil => simp only [List.nil_append, List.cons.injEq] at h1; rw [← h1.1, hr] at h3; exact Except.error.inj h3
          | cons x b =>
            simp only [List.cons_append, List.cons.injEq] at h1
            cases us with
            | nil => simp at h2
            | cons u us => simp only [List.map_cons, List.cons.injEq] at h2; rw [← h1.1, hr] at h2; cases h2.1
      | ok u =>
        simp only [bind, Except.bind]
        constructor
        · intro h
          cases hm : refs.mapM L.urlparse with
          | ok us => rw [hm] at h; simp [pure, Except.pure] at h
          | error e' =>
            rw [hm] at h
            cases h
            obtain ⟨b, r', a, us, h1, h2, h3⟩ := (ih _).1 hm
            exact ⟨r :: b, r', a, u :: us, by simp [h1], by simp [hr, h2], h3⟩
        · rintro ⟨b, r', a, us, h1, h2, h3⟩
          cases b with
          | nil => simp only [List.nil_append, List.cons.injEq] at h1; rw [← h1.1, hr] at h3; cases h3
          | cons x b =>
            simp only [List.cons_append, List.cons.injEq] at h1
            cases us with
            | nil => simp at h2
            | cons u' us =>
              simp only [List.map_cons, List.cons.injEq] at h2
              rw [(ih e).2 ⟨b, r', a, us, h1.2, h2.2, h3⟩]
  refine ⟨fun e h => ?_, fun refs us h => ?_, fun refs e h => ?_⟩
  · simp only [extractModelReferenceUris, h, bind, Except.bind]
  · simp only [extractModelReferenceUris, h, bind, Except.bind]; exact okS refs us
  · simp only [extractModelReferenceUris, h, bind, Except.bind]; exact errS refs e

end

/-! ## Examples -/

example : usesStandardModel (F := ToyFloat) [(py!"lifecycle:model", .mk .literal py!"lifecycle:model" none (.str py!" standard\n") [] [])] = .ok true ∧
    usesStandardModel (F := ToyFloat) [(py!"lifecycle:model", .mk .discrete py!"lifecycle:model" none (.int 3) [] [])] = .error .attributeError := by
  constructor
  · exact c158_model.text (F := ToyFloat) [(py!"lifecycle:model", .mk .literal py!"lifecycle:model" none (.str py!" standard\n") [] [])] .literal _ _ _ _ _
      (by decide) (by decide) rfl
  · exact c158_model.other _ .discrete _ _ _ _ _ (by decide) (by decide) (by simp) (by simp) rfl

example : extractStandardTransition (F := ToyFloat) [(py!"lifecycle:transition", .mk .id py!"x" none (.str py!" START ") [] [])] = .ok (some py!"start") := by
  have h := c158_transition.text (F := ToyFloat) _ .id py!"x" none py!" START " [] [] (by decide) (by decide)
    (show dget py!"lifecycle:transition" [(py!"lifecycle:transition", .mk .id py!"x" none (.str py!" START ") [] [])] = some _ from rfl)
  have e : pyLower (strip py!" START ") = py!"start" := by decide +kernel
  rw [e] at h
  exact h

example : RefPieces py!"a\\sb c\\s" [py!"a", py!"b c", []] ∧ ¬ RefPieces py!"a\\sb" [py!"a\\sb"] := by
  refine ⟨?_, fun h => h.2.2 _ (List.mem_singleton.2 rfl) py!"a" py!"b" rfl⟩
  have := splitStr_pieces py!"a\\sb c\\s"
  have e : splitStr py!"\\s" py!"a\\sb c\\s" = [py!"a", py!"b c", []] := by decide +kernel
  rwa [e] at this

end Opy
