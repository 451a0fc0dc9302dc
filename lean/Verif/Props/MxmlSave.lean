import Verif.Props.Convert
set_option linter.unusedSectionVars false
namespace Opy

/-! # Which logs can be saved as MXML (C155) -/

section
variable {F : Type} [PyFloat F]

/-! ## Spec -/

mutual
/-- The attribute can be printed: timestamps hold a time. -/
def Prints : Attr F → Prop
  | .mk k _ _ v _ c =>
    match k with
    | .timestamp => ∃ d, v = .dt d
    | .list | .container => PrintsAll c
    | _ => True
/-- The same for a list. -/
def PrintsAll : List (Attr F) → Prop
  | [] => True
  | a :: as => Prints a ∧ PrintsAll as
end

/-- The attribute has a value, which is a text. -/
def HasText (a : Attr F) : Prop := a.kind.isCollection = false ∧ ∃ s, a.val = .str s

/-- The attribute has a value, which is a text or `None`. -/
def HasTextOrNone (a : Attr F) : Prop := a.kind.isCollection = false ∧ (a.val = .none ∨ ∃ s, a.val = .str s)

/-- A model reference under its key is a text. -/
def RefText (m : AttrMap F) : Prop := ∀ a, dget py!"semantic:modelReference" m = some a → HasText a

/-- What the log, a trace or an event needs: the name is a text; the model reference is a text, and has no attributes of its own. -/
structure FitPart (m : AttrMap F) : Prop where
  name : ∀ a, dget py!"concept:name" m = some a → HasTextOrNone a
  ref : RefText m
  data : ∀ p ∈ m, p.2.key = py!"semantic:modelReference" → p.2.attrs = [] ∧ Prints p.2

/-- What an event needs in addition: the transition is a text, the resource (or the role, or the group) is a text, the timestamp has a value. -/
structure FitEvent (m : AttrMap F) : Prop extends FitPart m where
  transition : ∀ a, dget py!"lifecycle:transition" m = some a → HasText a ∧ RefText a.attrs
  originator : ∀ a, (dget py!"org:resource" m = some a ∨ dget py!"org:resource" m = none ∧ dget py!"org:role" m = some a ∨
    dget py!"org:resource" m = none ∧ dget py!"org:role" m = none ∧ dget py!"org:group" m = some a) → HasTextOrNone a ∧ RefText a.attrs
  time : ∀ a, dget py!"time:timestamp" m = some a → a.kind.isCollection = false ∧ RefText a.attrs

/-- A log that can be saved as MXML. -/
structure MxmlFit (l : Log F) : Prop where
  log : FitPart l.attrs
  traces : ∀ t ∈ l.traces, FitPart t.attrs
  events : ∀ t ∈ l.traces, ∀ e ∈ t.events, FitEvent e.attrs

/-- The exceptions that are raised. -/
def MxmlFault (e : PyErr) : Prop := e = .typeError ∨ e = .attributeError

/-! ## Proof -/

/-- Fine exactly if `P` holds, and refused by a type or attribute error otherwise. -/
def OkIff {α : Type} (x : Except PyErr α) (P : Prop) : Prop :=
  match x with
  | .ok _ => P
  | .error e => ¬ P ∧ MxmlFault e

theorem OkIff.ok {α : Type} {x : Except PyErr α} {P : Prop} (h : OkIff x P) (hP : P) : ∃ y, x = .ok y := by
  cases x with
  | ok y => exact ⟨y, rfl⟩
  | error e => exact absurd hP h.1

theorem OkIff.bind {α β : Type} {x : Except PyErr α} {f : α → Except PyErr β} {P Q : Prop} (h : OkIff x P) (hf : ∀ a, x = .ok a → OkIff (f a) Q) :
    OkIff (x >>= f) (P ∧ Q) := by
  cases x with
  | error e => exact ⟨fun hp => h.1 hp.1, h.2⟩
  | ok a =>
    have h2 := hf a rfl
    show OkIff (f a) (P ∧ Q)
    cases hfa : f a with
    | ok b => rw [hfa] at h2; exact ⟨h, h2⟩
    | error e => rw [hfa] at h2; exact ⟨fun hp => h2.1 hp.2, h2.2⟩

theorem OkIff.iff {α : Type} {x : Except PyErr α} {P Q : Prop} (h : OkIff x P) (hpq : P ↔ Q) : OkIff x Q := by
  have : P = Q := propext hpq
  exact this ▸ h

theorem okIff_true {α : Type} (a : α) : OkIff (.ok a) True := trivial

theorem getValue_okIff (a : Attr F) : OkIff (getValue a) (a.kind.isCollection = false) := by
  unfold getValue
  cases h : a.kind.isCollection with
  | true => exact ⟨by simp, .inr rfl⟩
  | false => rfl

theorem getValue_eq {a : Attr F} {v : PyVal F} (h : getValue a = .ok v) : v = a.val := by
  unfold getValue at h
  split at h
  · cases h
  · cases h; rfl

theorem xmlStr_okIff (v : PyVal F) : OkIff (xmlStr v) (∃ s, v = .str s) := by
  cases v <;> first | exact ⟨_, rfl⟩ | exact ⟨(fun ⟨_, h⟩ => by cases h), .inl rfl⟩

theorem xmlText_okIff (v : PyVal F) : OkIff (xmlText v) (v = .none ∨ ∃ s, v = .str s) := by
  cases v <;> first | exact .inr ⟨_, rfl⟩ | exact .inl rfl | exact ⟨(fun h => by rcases h with h | ⟨_, h⟩ <;> cases h), .inl rfl⟩

theorem refAttr_okIff (m : AttrMap F) : OkIff (refAttr m) (RefText m) := by
  unfold refAttr RefText
  cases dget py!"semantic:modelReference" m with
  | none => intro a h; cases h
  | some a =>
    refine OkIff.iff (OkIff.bind (getValue_okIff a) (Q := ∃ s, a.val = .str s) fun v hv => ?_) ⟨fun h a' ha' => by cases ha'; exact h, fun h => h a rfl⟩
    rw [getValue_eq hv]
    exact OkIff.iff ((xmlStr_okIff a.val).bind fun s _ => okIff_true _) ((iff_of_eq (and_true _)))

mutual
theorem attrStr_okIff : ∀ a : Attr F, OkIff (attrStr a) (Prints a)
  | .mk k key e v m c => by
    have hc := collStr_okIff c ['[']
    cases k with
    | literal | discrete | continuous | id | boolean => simp only [attrStr, Prints]; exact trivial
    | timestamp =>
      simp only [attrStr, Prints]
      cases v <;> first | exact ⟨_, rfl⟩ | exact ⟨(fun ⟨_, h⟩ => by cases h), .inr rfl⟩
    | list | container =>
      simp only [attrStr, Prints]
      exact OkIff.iff (hc.bind fun _ _ => okIff_true _) (iff_of_eq (and_true _))
theorem collStr_okIff : ∀ (c : List (Attr F)) (sep : Str), OkIff (collStr sep c) (PrintsAll c)
  | [], _ => trivial
  | .mk k key e v m c' :: c, sep => by
    simp only [collStr, PrintsAll]
    exact (attrStr_okIff (.mk k key e v m c')).bind fun _ _ => OkIff.iff ((collStr_okIff c [',']).bind fun _ _ => okIff_true _) (iff_of_eq (and_true _))
end

theorem dataKids_okIff : ∀ m : AttrMap F, OkIff (dataKids m) (∀ p ∈ m, p.2.key = py!"semantic:modelReference" → p.2.attrs = [] ∧ Prints p.2)
  | [] => by intro p hp; cases hp
  | (k, a) :: m => by
    unfold dataKids
    have ih := dataKids_okIff m
    split
    · next hk =>
      have hl : ∀ (r : List (Str × Str)) (t : Str), OkIff (if 0 < a.attrs.length then .error .attributeError
        else do
          let ks ← dataKids m
          .ok (MNode.elem py!"attribute" ((py!"name", a.key) :: r) (if t = [] then [] else [.text t]) :: ks)) (a.attrs = [] ∧
          ∀ p ∈ m, p.2.key = py!"semantic:modelReference" → p.2.attrs = [] ∧ Prints p.2) := by
        intro r t
        split
        · next hl => exact ⟨(fun h => by rw [h.1] at hl; cases hl), .inr rfl⟩
        · next hl =>
          have he : a.attrs = [] := by cases ha : a.attrs with
            | nil => rfl
            | cons x y => rw [ha] at hl; simp at hl
          exact OkIff.iff (ih.bind fun _ _ => okIff_true _) ⟨fun h => ⟨he, h.1⟩, fun h => ⟨h.2, trivial⟩⟩
      refine OkIff.iff ((refAttr_okIff a.attrs).bind fun r _ => (attrStr_okIff a).bind fun t _ => hl r t) ?_
      constructor
      · rintro ⟨_, h2, h3, h4⟩ p hp hpk
        rcases List.mem_cons.1 hp with rfl | hp
        · exact ⟨h3, h2⟩
        · exact h4 p hp hpk
      · intro h
        have h1 := h (k, a) (by simp) hk
        exact ⟨(by rw [h1.1]; intro x hx; cases hx), h1.2, h1.1, fun p hp => h p (by simp [hp])⟩
    · next hk =>
      refine OkIff.iff ih ⟨fun h p hp hpk => ?_, fun h p hp => h p (by simp [hp])⟩
      rcases List.mem_cons.1 hp with rfl | hp
      · exact absurd hpk hk
      · exact h p hp hpk

theorem dataXml_okIff (m : AttrMap F) : OkIff (dataXml m) (∀ p ∈ m, p.2.key = py!"semantic:modelReference" → p.2.attrs = [] ∧ Prints p.2) :=
  OkIff.iff ((dataKids_okIff m).bind fun _ _ => okIff_true _) (iff_of_eq (and_true _))

theorem extractName_text (m : AttrMap F) : ∀ v, extractName m = .ok v → ((v = .none ∨ ∃ s, v = .str s) ↔ ∀ a, dget py!"concept:name" m = some a → HasTextOrNone a) := by
  intro v hv
  unfold extractName extractOr at hv
  cases ha : dget py!"concept:name" m with
  | none =>
    rw [ha] at hv
    cases hv
    simp
  | some a =>
    rw [ha] at hv
    simp only at hv
    rw [getValue_eq hv]
    have hc : a.kind.isCollection = false := by
      unfold getValue at hv
      split at hv
      · cases hv
      · next h => simpa using h
    exact ⟨fun h a' ha' => by cases ha'; exact ⟨hc, h⟩, fun h => (h a rfl).2⟩

theorem extractName_okIff (m : AttrMap F) : OkIff (extractName m) (∀ a, dget py!"concept:name" m = some a → a.kind.isCollection = false) := by
  unfold extractName extractOr
  cases dget py!"concept:name" m with
  | none => intro a h; cases h
  | some a => exact OkIff.iff (getValue_okIff a) ⟨fun h a' ha' => by cases ha'; exact h, fun h => h a rfl⟩

theorem nameText_okIff {α : Type} (m : AttrMap F) (f : PyVal F → Except PyErr α) (hf : ∀ v, OkIff (f v) (v = .none ∨ ∃ s, v = .str s)) :
    OkIff (extractName m >>= f) (∀ a, dget py!"concept:name" m = some a → HasTextOrNone a) :=
  OkIff.iff ((extractName_okIff m).bind fun v hv => OkIff.iff (hf v) (extractName_text m v hv)) ⟨fun h => h.2, fun h => ⟨fun a ha => (h a ha).1, h⟩⟩

theorem mxmlId_okIff (m : AttrMap F) : OkIff (mxmlId m) (∀ a, dget py!"concept:name" m = some a → HasTextOrNone a) := by
  refine nameText_okIff m _ fun v => ?_
  cases v <;> first | exact .inr ⟨_, rfl⟩ | exact .inl rfl | exact ⟨(fun h => by rcases h with h | ⟨_, h⟩ <;> cases h), .inl rfl⟩

theorem typeXml_okIff (m : AttrMap F) : OkIff (typeXml m) (∀ a, dget py!"lifecycle:transition" m = some a → HasText a ∧ RefText a.attrs) := by
  unfold typeXml
  cases dget py!"lifecycle:transition" m with
  | none => intro a h; cases h
  | some a =>
    refine OkIff.iff ((refAttr_okIff a.attrs).bind fun r _ => (getValue_okIff a).bind (Q := ∃ s, a.val = .str s) fun v hv => ?_)
      ⟨fun h a' ha' => by cases ha'; exact ⟨h.2, h.1⟩, fun h => ⟨(h a rfl).2, (h a rfl).1⟩⟩
    rw [getValue_eq hv]
    cases a.val <;> first | exact ⟨(fun ⟨_, h⟩ => by cases h), .inr rfl⟩ | (simp only; split <;> exact ⟨_, rfl⟩)

theorem originatorXml_okIff (m : AttrMap F) : OkIff (originatorXml m) (∀ a, (dget py!"org:resource" m = some a ∨ dget py!"org:resource" m = none ∧ dget py!"org:role" m = some a ∨
    dget py!"org:resource" m = none ∧ dget py!"org:role" m = none ∧ dget py!"org:group" m = some a) → HasTextOrNone a ∧ RefText a.attrs) := by
  have key : ∀ a : Attr F, OkIff (do
      let r ← refAttr a.attrs
      let t ← xmlText (← getValue a)
      .ok [MNode.elem py!"originator" r t]) (HasTextOrNone a ∧ RefText a.attrs) := by
    intro a
    refine OkIff.iff ((refAttr_okIff a.attrs).bind fun r _ => (getValue_okIff a).bind (Q := a.val = .none ∨ ∃ s, a.val = .str s) fun v hv => ?_) and_comm
    rw [getValue_eq hv]
    exact OkIff.iff ((xmlText_okIff a.val).bind fun _ _ => okIff_true _) (iff_of_eq (and_true _))
  unfold originatorXml
  cases dget py!"org:resource" m with
  | some a => exact OkIff.iff (key a) (by simp)
  | none =>
    cases dget py!"org:role" m with
    | some a => exact OkIff.iff (key a) (by simp)
    | none =>
      cases dget py!"org:group" m with
      | some a => exact OkIff.iff (key a) (by simp)
      | none => exact OkIff.iff (okIff_true _) (by simp)

theorem timestampXml_okIff (m : AttrMap F) : OkIff (timestampXml m) (∀ a, dget py!"time:timestamp" m = some a → a.kind.isCollection = false ∧ RefText a.attrs) := by
  unfold timestampXml
  cases dget py!"time:timestamp" m with
  | none => intro a h; cases h
  | some a =>
    exact OkIff.iff ((refAttr_okIff a.attrs).bind fun r _ => (getValue_okIff a).bind fun v _ => okIff_true _)
      ⟨fun h a' ha' => by cases ha'; exact ⟨h.2.1, h.1⟩, fun h => ⟨(h a rfl).2, (h a rfl).1, trivial⟩⟩

theorem entryXml_okIff (e : Event F) : OkIff (entryXml e) (FitEvent e.attrs) := by
  have h : OkIff (entryXml e) _ := (dataXml_okIff e.attrs).bind fun d _ => (refAttr_okIff e.attrs).bind fun r _ =>
    (extractName_okIff e.attrs).bind fun v hv => (OkIff.iff (xmlText_okIff v) (extractName_text e.attrs v hv)).bind fun n _ =>
    (typeXml_okIff e.attrs).bind fun t _ => (originatorXml_okIff e.attrs).bind fun o _ => (timestampXml_okIff e.attrs).bind fun ts _ => okIff_true _
  refine h.iff ⟨fun ⟨h1, h2, _, h4, h5, h6, h7, _⟩ => ⟨⟨h4, h2, h1⟩, h5, h6, h7⟩, fun h => ⟨h.data, h.ref, fun a ha => (h.name a ha).1, h.name, h.transition, h.originator, h.time, trivial⟩⟩

theorem entriesXml_okIff : ∀ es : List (Event F), OkIff (entriesXml es) (∀ e ∈ es, FitEvent e.attrs)
  | [] => by intro e he; cases he
  | e :: es => OkIff.iff ((entryXml_okIff e).bind fun _ _ => (entriesXml_okIff es).bind fun _ _ => okIff_true _) (by simp)

theorem instanceXml_okIff (t : Trace F) : OkIff (instanceXml t) (FitPart t.attrs ∧ ∀ e ∈ t.events, FitEvent e.attrs) := by
  have h : OkIff (instanceXml t) _ := (mxmlId_okIff t.attrs).bind fun i _ => (refAttr_okIff t.attrs).bind fun r _ => (dataXml_okIff t.attrs).bind fun d _ =>
    (entriesXml_okIff t.events).bind fun _ _ => okIff_true _
  exact h.iff ⟨fun ⟨h1, h2, h3, h4, _⟩ => ⟨⟨h1, h2, h3⟩, h4⟩, fun ⟨h, h4⟩ => ⟨h.name, h.ref, h.data, h4, trivial⟩⟩

theorem instancesXml_okIff : ∀ ts : List (Trace F), OkIff (instancesXml ts) (∀ t ∈ ts, FitPart t.attrs ∧ ∀ e ∈ t.events, FitEvent e.attrs)
  | [] => by intro e he; cases he
  | t :: ts => OkIff.iff ((instanceXml_okIff t).bind fun _ _ => (instancesXml_okIff ts).bind fun _ _ => okIff_true _) (by simp)

theorem serializeMxml_okIff (l : Log F) : OkIff (serializeMxml l) (MxmlFit l) := by
  have h : OkIff (serializeMxml l) _ := (mxmlId_okIff l.attrs).bind fun i _ => (refAttr_okIff l.attrs).bind fun r _ => (dataXml_okIff l.attrs).bind fun d _ =>
    (instancesXml_okIff l.traces).bind fun _ _ => okIff_true _
  exact h.iff ⟨fun ⟨h1, h2, h3, h4, _⟩ => ⟨⟨h1, h2, h3⟩, fun t ht => (h4 t ht).1, fun t ht => (h4 t ht).2⟩,
    fun h => ⟨h.log.name, h.log.ref, h.log.data, fun t ht => ⟨h.traces t ht, h.events t ht⟩, trivial⟩⟩

/-- C155: a log is turned into a document exactly if it fits; otherwise a TypeError or an AttributeError is raised. -/
theorem c155_exact (l : Log F) : ((∃ x, serializeMxml l = .ok x) ↔ MxmlFit l) ∧ ∀ e, serializeMxml l = .error e → e = .typeError ∨ e = .attributeError := by
  have h := serializeMxml_okIff l
  refine ⟨⟨fun ⟨x, hx⟩ => by rw [hx] at h; exact h, h.ok⟩, fun e he => by rw [he] at h; exact h.2⟩

/-- C155 for files: a log that fits and whose texts are legal in XML is written, ... -/
theorem c155_written (modern : Bool) {l : Log F} (h : MxmlFit l) (hl : LegalMxml l) : ∃ text, saveMxml modern l = .ok text := by
  obtain ⟨x, hx⟩ := (c155_exact l).1.2 h
  obtain ⟨text, _, h1, _⟩ := (saveTree_spec modern mxmlComments_ok (serializeMxml_fine hx).1).1 ((serializeMxml_fine hx).2 hl)
  exact ⟨text, by simp [saveMxml, hx, h1, bind, Except.bind]⟩

/-- ... and one that does not fit is refused. -/
theorem c155_refused (modern : Bool) {l : Log F} (h : ¬ MxmlFit l) : saveMxml modern l = .error .typeError ∨ saveMxml modern l = .error .attributeError := by
  cases hs : serializeMxml l with
  | ok x => exact absurd ((c155_exact l).1.1 ⟨x, hs⟩) h
  | error e =>
    rcases (c155_exact l).2 e hs with rfl | rfl
    · exact .inl (by simp [saveMxml, hs, bind, Except.bind])
    · exact .inr (by simp [saveMxml, hs, bind, Except.bind])

/-! ## Logs from MXML files -/

/-- No data attribute that is called like the model reference has a model reference itself. -/
def RefsPlain (l : Log F) : Prop :=
  ∀ m : AttrMap F, (m = l.attrs ∨ ∃ t ∈ l.traces, m = t.attrs ∨ ∃ e ∈ t.events, m = e.attrs) → ∀ p ∈ m, p.2.key = py!"semantic:modelReference" → p.2.attrs = []

theorem mapOk_get {m : AttrMap F} (h : MapOk m) {k : Str} {a : Attr F} (ha : dget k m = some a) : MxOk a ∧ a.key = k := by
  have hm := dget_mem ha
  exact ⟨mxMap_iff.1 h.2 _ hm, (h.1.2 _ hm).symm⟩

theorem mxOk_text {a : Attr F} (h : MxOk a) (h1 : a.key ≠ py!"source") (h2 : a.key ≠ py!"time:timestamp") : HasText a := by
  obtain ⟨k, key, e, v, m, c⟩ := a
  rcases h.1 with ⟨rfl, ⟨_, hk⟩ | ⟨s, rfl, _⟩⟩ | ⟨⟨_, hk⟩, _⟩
  · exact absurd hk h1
  · exact ⟨rfl, s, rfl⟩
  · exact absurd hk h2

theorem mxOk_noColl {a : Attr F} (h : MxOk a) : a.kind.isCollection = false ∧ Prints a := by
  obtain ⟨k, key, e, v, m, c⟩ := a
  rcases h.1 with ⟨rfl, _⟩ | ⟨⟨rfl, _⟩, d, rfl, _⟩
  · exact ⟨rfl, trivial⟩
  · exact ⟨rfl, d, rfl⟩

theorem mxOk_map {a : Attr F} (h : MxOk a) : MapOk a.attrs := by
  obtain ⟨k, key, e, v, m, c⟩ := a
  exact h.2.2.2.2

theorem mapOk_text {m : AttrMap F} (h : MapOk m) {k : Str} (h1 : k ≠ py!"source") (h2 : k ≠ py!"time:timestamp") {a : Attr F} (ha : dget k m = some a) :
    HasText a ∧ ∀ b, dget py!"semantic:modelReference" a.attrs = some b → HasText b := by
  obtain ⟨h3, h4⟩ := mapOk_get h ha
  refine ⟨mxOk_text h3 (h4 ▸ h1) (h4 ▸ h2), fun b hb => ?_⟩
  obtain ⟨h5, h6⟩ := mapOk_get (mxOk_map h3) hb
  exact mxOk_text h5 (by rw [h6]; decide) (by rw [h6]; decide)

theorem HasText.orNone {a : Attr F} (h : HasText a) : HasTextOrNone a := ⟨h.1, .inr h.2⟩

theorem mapOk_fit {m : AttrMap F} (h : MapOk m) (hp : ∀ p ∈ m, p.2.key = py!"semantic:modelReference" → p.2.attrs = []) : FitEvent m where
  name := fun a ha => (mapOk_text h (by decide) (by decide) ha).1.orNone
  ref := fun a ha => (mapOk_text h (by decide) (by decide) ha).1
  data := fun p hm hk => ⟨hp p hm hk, (mxOk_noColl (mxMap_iff.1 h.2 p hm)).2⟩
  transition := fun a ha => mapOk_text h (by decide) (by decide) ha
  originator := fun a ha => by
    rcases ha with ha | ⟨_, ha⟩ | ⟨_, _, ha⟩
    · exact ⟨(mapOk_text h (by decide) (by decide) ha).1.orNone, (mapOk_text h (by decide) (by decide) ha).2⟩
    · exact ⟨(mapOk_text h (by decide) (by decide) ha).1.orNone, (mapOk_text h (by decide) (by decide) ha).2⟩
    · exact ⟨(mapOk_text h (by decide) (by decide) ha).1.orNone, (mapOk_text h (by decide) (by decide) ha).2⟩
  time := fun a ha => by
    obtain ⟨h3, _⟩ := mapOk_get h ha
    refine ⟨(mxOk_noColl h3).1, fun b hb => ?_⟩
    obtain ⟨h5, h6⟩ := mapOk_get (mxOk_map h3) hb
    exact mxOk_text h5 (by rw [h6]; decide) (by rw [h6]; decide)

theorem plain_pyStr (d : DateTime) : ∀ c ∈ d.pyStr, 32 ≤ c.toNat ∧ c.toNat ≤ 126 := by
  have hp := fun w n c (hc : c ∈ padNat w n) => plain_padNat w n c hc
  have hs : ∀ {x : Char} {c : Char} (l : Str), (32 ≤ x.toNat ∧ x.toNat ≤ 126) → (c ∈ l → 32 ≤ c.toNat ∧ c.toNat ≤ 126) → c ∈ x :: l → 32 ≤ c.toNat ∧ c.toNat ≤ 126 := by
    intro x c l hx hl hc
    rcases List.mem_cons.1 hc with rfl | hc
    · exact hx
    · exact hl hc
  intro c hc
  simp only [DateTime.pyStr, List.mem_append, List.mem_cons, List.not_mem_nil, or_false] at hc
  rcases hc with (((((((((((h | rfl) | h) | rfl) | h) | rfl) | h) | rfl) | h) | rfl) | h) | h) | h
  all_goals first | exact hp _ _ _ h | decide | skip
  · split at h
    · cases h
    · exact hs _ (by decide) (hp _ _ _) h
  · split at h
    · cases h
    · simp only [List.mem_append, List.mem_cons, List.not_mem_nil, or_false] at h
      rcases h with (((h | h) | rfl) | h) | h
      · split at h <;> (simp only [List.mem_cons, List.not_mem_nil, or_false] at h; subst h; decide)
      · exact hp _ _ _ h
      · decide
      · exact hp _ _ _ h
      · split at h
        · cases h
        · exact hs _ (by decide) (hp _ _ _) h

theorem mxOk_legal {a : Attr F} (h : MxOk a) : LegalText (pyStr a.val) ∧ ∀ s, attrStr a = .ok s → LegalText s := by
  obtain ⟨k, key, e, v, m, c⟩ := a
  rcases h.1 with ⟨rfl, ⟨rfl, _⟩ | ⟨s, rfl, hs⟩⟩ | ⟨⟨rfl, _⟩, d, rfl, hd, _⟩
  · have : LegalText py!"None" := legalText_plain (by decide)
    exact ⟨this, fun s hs => by simp only [attrStr, Except.ok.injEq] at hs; rw [← hs]; exact this⟩
  · exact ⟨hs, fun s' hs' => by simp only [attrStr, Except.ok.injEq] at hs'; rw [← hs']; exact hs⟩
  · exact ⟨legalText_plain (plain_pyStr d), fun s' hs' => by simp only [attrStr, Except.ok.injEq] at hs'; rw [← hs']; exact legalText_plain (plain_xesStr hd)⟩

theorem mapOk_legal {m : AttrMap F} (h : MapOk m) : LegalShown m := fun p hp =>
  have hx := mxMap_iff.1 h.2 p hp
  ⟨(mxOk_legal hx).1, (mxOk_legal hx).2, fun q hq => (mxOk_legal (mxMap_iff.1 (mxOk_map hx).2 q hq)).1⟩

/-- C155: a log that was loaded from an MXML file can be saved as MXML, exactly if no data attribute called `semantic:modelReference` has a
model reference of its own. -/
theorem c155_again (modern : Bool) {rnd : Nat → Uuid} {text : Str} {logs : List (Log F)} (h : loadMxml rnd text = .ok logs) :
    ∀ l ∈ logs, (∃ text', saveMxml modern l = .ok text') ↔ RefsPlain l := by
  obtain ⟨es, h1, h2⟩ := bind_ok.1 h
  intro l hl
  have hok := parse_ok (readXml_legal h1) h2 l hl
  constructor
  · rintro ⟨text', ht⟩
    have hf : MxmlFit l := by
      apply Classical.byContradiction
      intro hn
      rcases c155_refused modern hn with h | h <;> rw [h] at ht <;> cases ht
    rintro m (rfl | ⟨t, htr, rfl | ⟨e, he, rfl⟩⟩) p hp hk
    · exact (hf.log.data p hp hk).1
    · exact ((hf.traces t htr).data p hp hk).1
    · exact ((hf.events t htr e he).data p hp hk).1
  · intro hp
    refine c155_written modern ⟨(mapOk_fit hok.attrs (hp _ (.inl rfl))).toFitPart,
      fun t ht => (mapOk_fit (hok.traces t ht).1 (hp _ (.inr ⟨t, ht, .inl rfl⟩))).toFitPart,
      fun t ht e he => mapOk_fit ((hok.traces t ht).2 e he) (hp _ (.inr ⟨t, ht, .inr ⟨e, he, rfl⟩⟩))⟩
      ⟨mapOk_legal hok.attrs, fun t ht => ⟨mapOk_legal (hok.traces t ht).1, fun e he => mapOk_legal ((hok.traces t ht).2 e he)⟩⟩

end

/-! ## Examples -/

/-- What becomes of a log whose only event has the given attributes. -/
def mxmlSaved (m : AttrMap ToyFloat) : Option PyErr :=
  match saveMxml false (F := ToyFloat) ⟨[], [], [], [], [], [], [⟨[], [⟨⟨0, by decide⟩, m⟩]⟩]⟩ with
  | .ok _ => none
  | .error e => some e

def litAt (k v : Str) (m : AttrMap ToyFloat) : Str × Attr ToyFloat := (k, .mk .literal k none (.str v) m [])

/-- Saved: no attributes; a name and a transition.  Refused: a number as name; a list as name; a number as transition; a role that is a number; a model
reference with an attribute of its own; a model reference of the transition that is no text. -/
example : [[], [litAt py!"concept:name" py!"A" [], litAt py!"lifecycle:transition" py!"x" [litAt py!"semantic:modelReference" py!"r" []]],
    [(py!"concept:name", .mk .discrete py!"concept:name" none (.int 1) [] [])], [(py!"concept:name", .mk .list py!"concept:name" none .none [] [])],
    [(py!"lifecycle:transition", .mk .discrete py!"lifecycle:transition" none (.int 1) [] [])], [(py!"org:role", .mk .discrete py!"org:role" none (.int 1) [] [])],
    [litAt py!"semantic:modelReference" py!"r" [litAt py!"a" py!"b" []]],
    [litAt py!"lifecycle:transition" py!"x" [(py!"semantic:modelReference", .mk .boolean py!"semantic:modelReference" none (.bool true) [] [])]]].map mxmlSaved =
  [none, none, some .typeError, some .attributeError, some .attributeError, some .typeError, some .attributeError, some .typeError] := by decide +kernel

/-- A file whose log cannot be saved as MXML, and one whose log can. -/
example : ([py!"<WorkflowLog><Process><ProcessInstance><AuditTrailEntry><Attribute name='semantic:modelReference' modelReference='r'>x</Attribute></AuditTrailEntry></ProcessInstance></Process></WorkflowLog>",
    py!"<WorkflowLog><Source/><Process><ProcessInstance><AuditTrailEntry><Attribute name='semantic:modelReference'>x</Attribute><Timestamp>2020-02-29T23:05:07Z</Timestamp></AuditTrailEntry></ProcessInstance></Process></WorkflowLog>"].map
    fun s => match loadMxml (F := ToyFloat) (fun _ => ⟨0, by decide⟩) s with
      | .ok [l] => (saveMxml false l).isOk
      | _ => false) = [false, true] := by decide +kernel

end Opy
