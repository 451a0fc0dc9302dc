import Verif.Props.XmlText
/-
Property C113: saving a log as MXML text and loading the text.
-/
set_option linter.unusedSectionVars false
namespace Opy

section
variable {F : Type} [PyFloat F]

/-! ## Specification -/

/-- The texts shown for the attributes of a map and for the values of their nested attributes are legal. -/
def LegalShown (m : AttrMap F) : Prop :=
  ∀ p ∈ m, LegalText (pyStr p.2.val) ∧ (∀ s, attrStr p.2 = .ok s → LegalText s) ∧ ∀ q ∈ p.2.attrs, LegalText (pyStr q.2.val)

/-- The same for a log. -/
def LegalMxml (L : Log F) : Prop :=
  LegalShown L.attrs ∧ ∀ t ∈ L.traces, LegalShown t.attrs ∧ ∀ e ∈ t.events, LegalShown e.attrs

/-! ## MXML trees are tidy -/

/-- Attributes with good, different names. -/
def GoodAttrs (as : List (Str × Str)) : Prop := (∀ p ∈ as, GoodName p.1) ∧ (as.map Prod.fst).Nodup

theorem tidyAll_append {xs ys : List MNode} (h1 : TidyAll (fun _ => True) xs) (h2 : TidyAll (fun _ => True) ys) : TidyAll (fun _ => True) (xs ++ ys) := by
  induction xs with
  | nil => exact h2
  | cons x xs ih => exact ⟨h1.1, ih h1.2⟩

theorem legalAll_append {xs ys : List MNode} (h1 : LegalAll xs) (h2 : LegalAll ys) : LegalAll (xs ++ ys) := by
  induction xs with
  | nil => exact h2
  | cons x xs ih => exact ⟨h1.1, ih h1.2⟩

theorem getValue_val {a : Attr F} {v : PyVal F} (h : getValue a = .ok v) : v = a.val := by
  unfold getValue at h
  split at h
  · simp at h
  · simpa using h.symm

theorem refAttr_cases {m : AttrMap F} {r : List (Str × Str)} (h : refAttr m = .ok r) :
    r = [] ∨ ∃ s, r = [(py!"modelReference", s)] ∧ ∃ p ∈ m, pyStr p.2.val = s := by
  unfold refAttr at h
  split at h
  · left; simpa using h.symm
  · rename_i a ha
    right
    obtain ⟨v, h1, h⟩ := bind_ok.1 h
    obtain ⟨s, h2, h⟩ := bind_ok.1 h
    cases h
    refine ⟨s, rfl, _, dget_mem ha, ?_⟩
    rw [getValue_val h1] at h2
    revert h2
    cases a.val <;> simp [xmlStr, pyStr]

theorem refAttr_good {m : AttrMap F} {r : List (Str × Str)} (h : refAttr m = .ok r) {as : List (Str × Str)} (ha : GoodAttrs as)
    (hn : py!"modelReference" ∉ as.map Prod.fst) : GoodAttrs (as ++ r) := by
  rcases refAttr_cases h with rfl | ⟨s, rfl, _⟩
  · simpa using ha
  · refine ⟨?_, ?_⟩
    · intro p hp
      rcases List.mem_append.1 hp with hp | hp
      · exact ha.1 p hp
      · simp only [List.mem_singleton] at hp; subst hp; exact (by decide : GoodName py!"modelReference")
    · rw [List.map_append, List.nodup_append]
      refine ⟨ha.2, by simp, ?_⟩
      intro a h1 b h2
      simp only [List.map_cons, List.map_nil, List.mem_singleton] at h2
      subst h2
      rintro rfl
      exact hn h1

theorem refAttr_legal {m : AttrMap F} {r : List (Str × Str)} (h : refAttr m = .ok r) (hm : ∀ p ∈ m, LegalText (pyStr p.2.val)) :
    ∀ p ∈ r, ∀ c ∈ p.2, isXmlChar c = true := by
  rcases refAttr_cases h with rfl | ⟨s, rfl, p, hp, hs⟩
  · simp
  · simp only [List.mem_singleton, forall_eq]
    exact legalText_iff.2 (hs ▸ hm p hp)

theorem xmlText_cases {v : PyVal F} {t : List MNode} (h : xmlText v = .ok t) : t = [] ∨ ∃ s, v = .str s ∧ t = [.text s] := by
  cases v <;> simp only [xmlText, Except.ok.injEq, reduceCtorEq] at h
  · exact .inl h.symm
  · rename_i s
    by_cases hs : s = []
    · left; rw [if_pos hs] at h; exact h.symm
    · right; rw [if_neg hs] at h; exact ⟨s, rfl, h.symm⟩

/-- An element that contains at most one text. -/
theorem leaf_fine {t : Str} {as : List (Str × Str)} {ks : List MNode} (ht : GoodName t) (ha : GoodAttrs as) (hk : ks = [] ∨ ∃ s, ks = [.text s]) :
    Tidy (fun _ => True) (.elem t as ks) := by
  rw [Tidy]
  refine ⟨ht, ha.1, ha.2, ?_⟩
  rcases hk with rfl | ⟨s, rfl⟩
  · exact .inr trivial
  · exact .inl ⟨s, rfl, trivial⟩

theorem text_legal {s : Str} (h : ∀ c ∈ s, isXmlChar c = true) : LegalNode (.text s) := h

theorem goodAttrs_nil : GoodAttrs [] := ⟨by simp, by simp⟩

theorem dataKids_fine : ∀ {m : AttrMap F} {ks : List MNode}, dataKids m = .ok ks →
    TidyAll (fun _ => True) ks ∧ (LegalShown m → LegalAll ks)
  | [], ks, h => by rw [dataKids] at h; cases h; exact ⟨trivial, fun _ => trivial⟩
  | (k, a) :: m, ks, h => by
    rw [dataKids] at h
    split at h
    · rename_i hk
      obtain ⟨r, h1, h⟩ := bind_ok.1 h
      obtain ⟨t, h2, h⟩ := bind_ok.1 h
      split at h
      · cases h
      · obtain ⟨ks', h3, h⟩ := bind_ok.1 h
        cases h
        obtain ⟨i1, i2⟩ := dataKids_fine h3
        refine ⟨⟨leaf_fine (by decide) (refAttr_good h1 (as := [(py!"name", a.key)]) ⟨?_, by simp⟩ (by simp)) ?_, i1⟩, fun hl => ⟨⟨?_, ?_⟩, i2 fun p hp => hl p (by simp [hp])⟩⟩
        · simp only [List.mem_singleton, forall_eq]; decide
        · split
          · exact .inl rfl
          · exact .inr ⟨_, rfl⟩
        · have h0 := hl (k, a) (by simp)
          simp only [List.forall_mem_cons]
          refine ⟨?_, refAttr_legal h1 h0.2.2⟩
          rw [hk]; decide
        · have h0 := hl (k, a) (by simp)
          split
          · trivial
          · exact ⟨legalText_iff.2 (h0.2.1 t h2), trivial⟩
    · obtain ⟨i1, i2⟩ := dataKids_fine h
      exact ⟨i1, fun hl => i2 fun p hp => hl p (by simp [hp])⟩

theorem tidy_elem {t : Str} {as : List (Str × Str)} {ks : List MNode} (ht : GoodName t) (ha : GoodAttrs as) (hk : TidyAll (fun _ => True) ks) :
    Tidy (fun _ => True) (.elem t as ks) := by
  rw [Tidy]
  exact ⟨ht, ha.1, ha.2, .inr hk⟩

theorem dataXml_fine {m : AttrMap F} {x : MNode} (h : dataXml m = .ok x) : Tidy (fun _ => True) x ∧ (LegalShown m → LegalNode x) := by
  obtain ⟨ks, h1, h⟩ := bind_ok.1 h
  cases h
  obtain ⟨i1, i2⟩ := dataKids_fine h1
  exact ⟨tidy_elem (by decide) goodAttrs_nil i1, fun hl => ⟨by simp, i2 hl⟩⟩

theorem dget_legal {m : AttrMap F} (hl : LegalShown m) {k : Str} {a : Attr F} (h : dget k m = some a) :
    LegalText (pyStr a.val) ∧ ∀ q ∈ a.attrs, LegalText (pyStr q.2.val) :=
  ⟨(hl _ (dget_mem h)).1, (hl _ (dget_mem h)).2.2⟩

theorem shown_vals {m : AttrMap F} (hl : LegalShown m) : ∀ p ∈ m, LegalText (pyStr p.2.val) := fun p hp => (hl p hp).1

theorem knownTypes_legal : ∀ t ∈ mxmlKnownTypes, ∀ c ∈ t, isXmlChar c = true := by decide +kernel

theorem typeXml_fine {m : AttrMap F} {x : MNode} (h : typeXml m = .ok x) : Tidy (fun _ => True) x ∧ (LegalShown m → LegalNode x) := by
  unfold typeXml at h
  split at h
  · cases h
    exact ⟨leaf_fine (by decide) goodAttrs_nil (.inr ⟨_, rfl⟩), fun _ => ⟨by simp, text_legal (by decide), trivial⟩⟩
  · rename_i a ha
    obtain ⟨r, h1, h⟩ := bind_ok.1 h
    obtain ⟨v, h2, h⟩ := bind_ok.1 h
    have hr : GoodAttrs r := by simpa using refAttr_good h1 goodAttrs_nil (by simp)
    split at h
    · rename_i v
      split at h
      · rename_i hk
        cases h
        exact ⟨leaf_fine (by decide) hr (.inr ⟨_, rfl⟩),
          fun hl => ⟨refAttr_legal h1 (dget_legal hl ha).2, knownTypes_legal _ hk, trivial⟩⟩
      · cases h
        refine ⟨leaf_fine (by decide) ?_ (.inr ⟨_, rfl⟩), fun hl => ⟨?_, text_legal (by decide), trivial⟩⟩
        · have hu : GoodName py!"unknownType" := by decide
          have hm : GoodName py!"modelReference" := by decide
          rcases refAttr_cases h1 with rfl | ⟨s, rfl, _⟩
          · exact ⟨by simpa using hu, by simp⟩
          · exact ⟨by simp [hu, hm], by simp⟩
        · have h3 := (dget_legal hl ha).1
          rw [← getValue_val h2] at h3
          simp only [List.forall_mem_append, List.mem_singleton, forall_eq]
          exact ⟨refAttr_legal h1 (dget_legal hl ha).2, legalText_iff.2 h3⟩
    · cases h

theorem originatorXml_fine {m : AttrMap F} {xs : List MNode} (h : originatorXml m = .ok xs) :
    TidyAll (fun _ => True) xs ∧ (LegalShown m → LegalAll xs) := by
  unfold originatorXml at h
  split at h
  · cases h; exact ⟨trivial, fun _ => trivial⟩
  · rename_i a ha
    obtain ⟨r, h1, h⟩ := bind_ok.1 h
    obtain ⟨v, h2, h⟩ := bind_ok.1 h
    obtain ⟨t, h3, h⟩ := bind_ok.1 h
    cases h
    have hr : GoodAttrs r := by simpa using refAttr_good h1 goodAttrs_nil (by simp)
    have hmem : ∃ k, dget k m = some a := by
      cases h4 : dget py!"org:resource" m with
      | some b => rw [h4] at ha; exact ⟨_, h4.trans ha⟩
      | none =>
        rw [h4] at ha
        cases h5 : dget py!"org:role" m with
        | some b => rw [h5] at ha; exact ⟨_, h5.trans ha⟩
        | none => rw [h5] at ha; exact ⟨_, ha⟩
    obtain ⟨k, hk⟩ := hmem
    rcases xmlText_cases h3 with rfl | ⟨s, rfl, rfl⟩
    · exact ⟨⟨leaf_fine (by decide) hr (.inl rfl), trivial⟩, fun hl => ⟨⟨refAttr_legal h1 (dget_legal hl hk).2, trivial⟩, trivial⟩⟩
    · refine ⟨⟨leaf_fine (by decide) hr (.inr ⟨_, rfl⟩), trivial⟩,
        fun hl => ⟨⟨refAttr_legal h1 (dget_legal hl hk).2, ?_, trivial⟩, trivial⟩⟩
      have h4 := (dget_legal hl hk).1
      rw [← getValue_val h2] at h4
      exact legalText_iff.2 h4

theorem timestampXml_fine {m : AttrMap F} {xs : List MNode} (h : timestampXml m = .ok xs) :
    TidyAll (fun _ => True) xs ∧ (LegalShown m → LegalAll xs) := by
  unfold timestampXml at h
  split at h
  · cases h; exact ⟨trivial, fun _ => trivial⟩
  · rename_i a ha
    obtain ⟨r, h1, h⟩ := bind_ok.1 h
    obtain ⟨v, h2, h⟩ := bind_ok.1 h
    cases h
    have hr : GoodAttrs r := by simpa using refAttr_good h1 goodAttrs_nil (by simp)
    refine ⟨⟨leaf_fine (by decide) hr (.inr ⟨_, rfl⟩), trivial⟩,
      fun hl => ⟨⟨refAttr_legal h1 (dget_legal hl ha).2, ?_, trivial⟩, trivial⟩⟩
    have h4 := (dget_legal hl ha).1
    rw [← getValue_val h2] at h4
    exact legalText_iff.2 h4

theorem extractName_legal {m : AttrMap F} {v : PyVal F} (h : extractName m = .ok v) (hl : LegalShown m) : LegalText (pyStr v) := by
  unfold extractName extractOr at h
  split at h
  · rename_i a ha
    rw [getValue_val h]
    exact (dget_legal hl ha).1
  · cases h; exact legalText_plain (s := py!"None") (by decide)

theorem entryXml_fine {e : Event F} {x : MNode} (h : entryXml e = .ok x) : Tidy (fun _ => True) x ∧ (LegalShown e.attrs → LegalNode x) := by
  obtain ⟨d, h1, h⟩ := bind_ok.1 h
  obtain ⟨r, h2, h⟩ := bind_ok.1 h
  obtain ⟨v, h3, h⟩ := bind_ok.1 h
  obtain ⟨n, h4, h⟩ := bind_ok.1 h
  obtain ⟨t, h5, h⟩ := bind_ok.1 h
  obtain ⟨o, h6, h⟩ := bind_ok.1 h
  obtain ⟨ts, h7, h⟩ := bind_ok.1 h
  cases h
  have hr : GoodAttrs r := by simpa using refAttr_good h2 goodAttrs_nil (by simp)
  have hn : n = [] ∨ ∃ s, n = [.text s] := by
    rcases xmlText_cases h4 with rfl | ⟨s, _, rfl⟩
    · exact .inl rfl
    · exact .inr ⟨s, rfl⟩
  constructor
  · refine tidy_elem (by decide) goodAttrs_nil (tidyAll_append (tidyAll_append ⟨(dataXml_fine h1).1, leaf_fine (by decide) hr hn, (typeXml_fine h5).1, trivial⟩
      (originatorXml_fine h6).1) (timestampXml_fine h7).1)
  · intro hl
    refine ⟨by simp, legalAll_append (legalAll_append ⟨(dataXml_fine h1).2 hl, ⟨refAttr_legal h2 (shown_vals hl), ?_⟩, (typeXml_fine h5).2 hl, trivial⟩
      ((originatorXml_fine h6).2 hl)) ((timestampXml_fine h7).2 hl)⟩
    rcases xmlText_cases h4 with rfl | ⟨s, rfl, rfl⟩
    · trivial
    · exact ⟨legalText_iff.2 (extractName_legal h3 hl), trivial⟩

theorem entriesXml_fine : ∀ {es : List (Event F)} {xs : List MNode}, entriesXml es = .ok xs →
    TidyAll (fun _ => True) xs ∧ ((∀ e ∈ es, LegalShown e.attrs) → LegalAll xs)
  | [], xs, h => by rw [entriesXml] at h; cases h; exact ⟨trivial, fun _ => trivial⟩
  | e :: es, xs, h => by
    rw [entriesXml] at h
    obtain ⟨x, h1, h⟩ := bind_ok.1 h
    obtain ⟨ys, h2, h⟩ := bind_ok.1 h
    cases h
    obtain ⟨i1, i2⟩ := entriesXml_fine h2
    exact ⟨⟨(entryXml_fine h1).1, i1⟩, fun hl => ⟨(entryXml_fine h1).2 (hl e (by simp)), i2 fun e he => hl e (by simp [he])⟩⟩

theorem mxmlId_legal {m : AttrMap F} {id : Option Str} (h : mxmlId m = .ok id) (hl : LegalShown m) : ∀ s, id = some s → LegalText s := by
  obtain ⟨v, h1, h⟩ := bind_ok.1 h
  intro s hs
  subst hs
  have h2 := extractName_legal h1 hl
  cases v <;> simp at h
  subst h
  exact h2

theorem legalText_append {a b : Str} (ha : LegalText a) (hb : LegalText b) : LegalText (a ++ b) := by
  intro c hc
  rcases List.mem_append.1 hc with h | h
  · exact ha c h
  · exact hb c h

theorem getD_legal {id : Option Str} (h : ∀ s, id = some s → LegalText s) {d : Str} (hd : LegalText d) : LegalText (id.getD d) := by
  cases id with
  | none => exact hd
  | some s => exact h s rfl

theorem instanceXml_fine {t : Trace F} {x : MNode} (h : instanceXml t = .ok x) :
    Tidy (fun _ => True) x ∧ (LegalShown t.attrs ∧ (∀ e ∈ t.events, LegalShown e.attrs) → LegalNode x) := by
  obtain ⟨id, h1, h⟩ := bind_ok.1 h
  obtain ⟨r, h2, h⟩ := bind_ok.1 h
  obtain ⟨d, h3, h⟩ := bind_ok.1 h
  obtain ⟨es, h4, h⟩ := bind_ok.1 h
  cases h
  constructor
  · refine tidy_elem (by decide) (refAttr_good h2 ⟨?_, by simp⟩ (by simp)) ⟨(dataXml_fine h3).1, (entriesXml_fine h4).1⟩
    simp only [List.mem_cons, List.not_mem_nil, or_false, forall_eq_or_imp, forall_eq]
    exact ⟨by decide, by decide⟩
  · rintro ⟨hl, he⟩
    refine ⟨?_, (dataXml_fine h3).2 hl, (entriesXml_fine h4).2 he⟩
    have hn : LegalText (id.getD py!"None") := getD_legal (mxmlId_legal h1 hl) (legalText_plain (by decide))
    rw [List.forall_mem_append]
    refine ⟨?_, refAttr_legal h2 (shown_vals hl)⟩
    intro p hp
    rcases List.mem_cons.1 hp with rfl | hp
    · exact legalText_iff.2 hn
    · rw [List.mem_singleton] at hp
      subst hp
      exact legalText_iff.2 (legalText_append (a := py!"instance with id ") (legalText_plain (by decide)) hn)

theorem instancesXml_fine : ∀ {ts : List (Trace F)} {xs : List MNode}, instancesXml ts = .ok xs →
    TidyAll (fun _ => True) xs ∧ ((∀ t ∈ ts, LegalShown t.attrs ∧ ∀ e ∈ t.events, LegalShown e.attrs) → LegalAll xs)
  | [], xs, h => by rw [instancesXml] at h; cases h; exact ⟨trivial, fun _ => trivial⟩
  | t :: ts, xs, h => by
    rw [instancesXml] at h
    obtain ⟨x, h1, h⟩ := bind_ok.1 h
    obtain ⟨ys, h2, h⟩ := bind_ok.1 h
    cases h
    obtain ⟨i1, i2⟩ := instancesXml_fine h2
    exact ⟨⟨(instanceXml_fine h1).1, i1⟩, fun hl => ⟨(instanceXml_fine h1).2 (hl t (by simp)), i2 fun t ht => hl t (by simp [ht])⟩⟩

/-- Every tree the MXML serializer builds is tidy, and legal if the log is. -/
theorem serializeMxml_fine {L : Log F} {x : MNode} (h : serializeMxml L = .ok x) : Tidy (fun _ => True) x ∧ (LegalMxml L → LegalNode x) := by
  obtain ⟨id, h1, h⟩ := bind_ok.1 h
  obtain ⟨r, h2, h⟩ := bind_ok.1 h
  obtain ⟨d, h3, h⟩ := bind_ok.1 h
  obtain ⟨is, h4, h⟩ := bind_ok.1 h
  cases h
  have hp : GoodName py!"program" := by decide
  have ho : GoodName py!"openxes.version" := by decide
  have hi : GoodName py!"id" := by decide
  have hd : GoodName py!"description" := by decide
  constructor
  · refine tidy_elem (by decide) goodAttrs_nil ⟨leaf_fine (by decide) ⟨by simp [hp, ho], by simp⟩ (.inl rfl),
      tidy_elem (by decide) (refAttr_good h2 ⟨by simp [hi, hd], by simp⟩ (by simp)) ⟨(dataXml_fine h3).1, (instancesXml_fine h4).1⟩, trivial⟩
  · rintro ⟨hl, ht⟩
    refine ⟨by simp, ⟨by decide, trivial⟩, ⟨?_, (dataXml_fine h3).2 hl, (instancesXml_fine h4).2 ht⟩, trivial⟩
    have hid := mxmlId_legal h1 hl
    rw [List.forall_mem_append]
    refine ⟨?_, refAttr_legal h2 (shown_vals hl)⟩
    intro p hp
    rcases List.mem_cons.1 hp with rfl | hp
    · exact legalText_iff.2 (getD_legal hid (legalText_plain (by decide)))
    · rw [List.mem_singleton] at hp
      subst hp
      exact legalText_iff.2 (legalText_append (a := py!"process with id ") (legalText_plain (by decide)) (getD_legal hid (legalText_plain (by decide))))

/-! ## C113 -/

theorem valueBack_plain (modern : Bool) : PlainFixed (valueBack modern) := fun _ h => (valueChannel modern).fixPlain h

theorem normEol_plain : PlainFixed normEol := by
  intro s h
  refine normEol_clean fun hm => ?_
  have := (h _ hm).1
  revert this
  decide

/-- C113: the file of a log that can be written as MXML and has legal texts can be read, and exactly this comes back. -/
theorem c113_file (rnd : Nat → Uuid) (modern : Bool) (log : Log F) (x : MNode) (hx : serializeMxml log = .ok x) (hl : LegalMxml log) :
    ∃ (text : Str) (l : Log F), saveMxml modern log = .ok text ∧ loadMxml rnd text = .ok [l] ∧
      l.attrs = logBack (valueBack modern) log.attrs ∧
      l.traces.map (fun t => (t.attrs, t.events.map Event.attrs)) =
        (log.traces.filter (fun t => t.events ≠ [])).map
          (fun t => (traceBack (valueBack modern) t.attrs, t.events.map (fun e => eventBack (valueBack modern) normEol e.attrs))) := by
  obtain ⟨text, s, h1, h2, h3⟩ := (saveTree_spec modern mxmlComments_ok (serializeMxml_fine hx).1).1 ((serializeMxml_fine hx).2 hl)
  obtain ⟨l, h4, h5, h6, _⟩ := c47_exact rnd (valueBack_plain modern) normEol_plain log x hx s h3
  refine ⟨text, l, by simp [saveMxml, hx, h1, bind, Except.bind], ?_, h5, h6⟩
  simp only [loadMxml, h2, bind, Except.bind, h4]

/-- ... in particular the names of the traces and events and the transitions come back. -/
theorem c113_names (rnd : Nat → Uuid) (modern : Bool) (log : Log F) (x : MNode) (hx : serializeMxml log = .ok x) (hl : LegalMxml log)
    (hev : ∀ t ∈ log.traces, t.events ≠ [])
    (htn : ∀ t ∈ log.traces, ∃ n, textAt py!"concept:name" t.attrs = some n ∧ '\t' ∉ n ∧ '\n' ∉ n ∧ '\r' ∉ n ∧ strip n ≠ [])
    (hen : ∀ t ∈ log.traces, ∀ e ∈ t.events, ∀ n, textAt py!"concept:name" e.attrs = some n → '\r' ∉ n ∧ strip n = n ∧ n ≠ [])
    (htt : ∀ t ∈ log.traces, ∀ e ∈ t.events, ∃ v ∈ [py!"schedule", py!"assign", py!"withdraw", py!"reassign", py!"start", py!"suspend",
      py!"resume", py!"pi_abort", py!"ate_abort", py!"complete", py!"autoskip", py!"manualskip"],
      textAt py!"lifecycle:transition" e.attrs = some v) :
    ∃ (text : Str) (l : Log F), saveMxml modern log = .ok text ∧ loadMxml rnd text = .ok [l] ∧ namesOf l = namesOf log := by
  obtain ⟨text, s, h1, h2, h3⟩ := (saveTree_spec modern mxmlComments_ok (serializeMxml_fine hx).1).1 ((serializeMxml_fine hx).2 hl)
  obtain ⟨l, h4, h5⟩ := c47_roundtrip rnd (valueBack_plain modern) normEol_plain log x hx s h3 hev
    (fun t ht => by
      obtain ⟨n, n1, n2, n3, n4, n5⟩ := htn t ht
      exact ⟨n, n1, (c112_partial modern n).2 (.inr ⟨n2, n3, n4⟩), n5⟩)
    (fun t ht e he n hn => by
      obtain ⟨n1, n2⟩ := hen t ht e he n hn
      exact ⟨normEol_clean n1, n2⟩) htt
  refine ⟨text, l, by simp [saveMxml, hx, h1, bind, Except.bind], ?_, h5⟩
  simp only [loadMxml, h2, bind, Except.bind, h4]

/-- A log with an illegal text is not written: an exception before anything is written. -/
theorem c113_illegal (modern : Bool) (log : Log F) (x : MNode) (hx : serializeMxml log = .ok x) (hl : ¬ LegalNode x) :
    saveMxml modern log = .error .other := by
  have := (saveTree_spec modern mxmlComments_ok (serializeMxml_fine hx).1).2 hl
  simp [saveMxml, hx, this, bind, Except.bind]

end

/-! ## Examples -/

theorem mxLog_legal : LegalMxml mxLog := by
  have h : ∀ s ∈ [py!"L", py!"case 1", py!"register", py!"Ann", py!"start"], LegalText s := fun s hs => legalText_plain (by
    revert s; decide)
  refine ⟨?_, ?_⟩
  · simp only [mxLog, LegalShown, lit, List.mem_singleton, forall_eq, Attr.val, pyStr, attrStr, Except.ok.injEq, Attr.attrs, List.not_mem_nil, false_implies, implies_true,
      and_true]
    exact ⟨h _ (by simp), fun s hs => hs ▸ h _ (by simp)⟩
  · simp only [mxLog, LegalShown, lit, List.mem_cons, List.not_mem_nil, or_false, forall_eq_or_imp, forall_eq, Attr.val, pyStr, attrStr, Except.ok.injEq, Attr.attrs,
      false_implies, implies_true, and_true]
    refine ⟨⟨h _ (by simp), fun s hs => hs ▸ h _ (by simp)⟩, ⟨h _ (by simp), fun s hs => hs ▸ h _ (by simp)⟩,
      ⟨h _ (by simp), fun s hs => hs ▸ h _ (by simp)⟩, h _ (by simp), fun s hs => hs ▸ h _ (by simp)⟩

/-- All hypotheses of `c113_names` at once. -/
example : ∃ (text : Str) (l : Log ToyFloat), saveMxml false mxLog = .ok text ∧ loadMxml (fun _ => ⟨0, by decide⟩) text = .ok [l] ∧
    namesOf l = [(some py!"case 1", [(some py!"register", some py!"start")])] := by
  obtain ⟨x, hx⟩ : ∃ x, serializeMxml mxLog = .ok x := ⟨_, rfl⟩
  obtain ⟨text, l, h1, h2, h3⟩ := c113_names (fun _ => ⟨0, by decide⟩) false mxLog x hx mxLog_legal (by simp [mxLog])
    (by simp [mxLog, textAt, lit, dget, getValue, Attr.kind, Attr.val, Kind.isCollection]; decide)
    (by simp [mxLog, textAt, lit, dget, getValue, Attr.kind, Attr.val, Kind.isCollection]; decide)
    (by simp [mxLog, textAt, lit, dget, getValue, Attr.kind, Attr.val, Kind.isCollection])
  exact ⟨text, l, h1, h2, by rw [h3]; decide +kernel⟩

end Opy
