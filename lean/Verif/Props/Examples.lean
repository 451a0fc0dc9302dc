import Verif.Lemmas.IntText
import Verif.Model.Examples
import Verif.Props.Info
import Verif.Props.Alpha
import Verif.Lemmas.Str
/-
C95-C97: compressing a log and converting a CSV file (example scripts).
-/
set_option linter.unusedSectionVars false
namespace Opy

/-! ## C95 -/

/-- Specification: the entries of the list whose kind does not occur earlier in the list. -/
def firstOfKind {τ κ : Type} [DecidableEq κ] (kind : τ → κ) (l : List τ) : List τ :=
  (List.range l.length).filterMap fun i => (l[i]?).bind fun t => if kind t ∈ (l.take i).map kind then none else some t

theorem firstOfKind_append {τ κ : Type} [DecidableEq κ] (kind : τ → κ) (l : List τ) (t : τ) :
    firstOfKind kind (l ++ [t]) = firstOfKind kind l ++ (if kind t ∈ l.map kind then [] else [t]) := by
  unfold firstOfKind
  rw [List.length_append, List.length_singleton, List.range_succ, List.filterMap_append]
  congr 1
  · apply List.filterMap_congr
    intro i hi
    have hi : i < l.length := List.mem_range.1 hi
    rw [List.getElem?_append_left hi, List.take_append_of_le_length (Nat.le_of_lt hi)]
  · simp only [List.filterMap_cons, List.filterMap_nil, List.getElem?_append_right (Nat.le_refl _), Nat.sub_self,
      List.getElem?_cons_zero, Option.bind_some, List.take_left]
    by_cases h : kind t ∈ l.map kind <;> simp [h]

theorem firstOfKind_kinds {τ κ : Type} [DecidableEq κ] (kind : τ → κ) (l : List τ) :
    (∀ k, k ∈ (firstOfKind kind l).map kind ↔ k ∈ l.map kind) ∧ ((firstOfKind kind l).map kind).Nodup ∧
    (firstOfKind kind l).Sublist l := by
  induction l using List.reverseRecOn with
  | nil => simp [firstOfKind]
  | append_singleton l t ih =>
    obtain ⟨h1, h2, h3⟩ := ih
    rw [firstOfKind_append]
    by_cases h : kind t ∈ l.map kind
    · rw [if_pos h, List.append_nil]
      refine ⟨fun k => ?_, h2, h3.trans (List.sublist_append_left l [t])⟩
      rw [h1, List.map_append, List.mem_append]
      constructor
      · exact Or.inl
      · rintro (h' | h')
        · exact h'
        · simp only [List.map_cons, List.map_nil, List.mem_singleton] at h'
          rw [h']
          exact h
    · rw [if_neg h]
      refine ⟨fun k => ?_, ?_, h3.append (List.Sublist.refl _)⟩
      · simp only [List.map_append, List.mem_append, h1]
      · rw [List.map_append, List.nodup_append]
        refine ⟨h2, by simp, ?_⟩
        rintro a ha b hb rfl
        simp only [List.map_cons, List.map_nil, List.mem_singleton] at hb
        exact h ((h1 _).1 (hb ▸ ha))

section
variable {F : Type} [PyFloat F]

/-- The sequence of class identities of a trace. -/
def variant (ident : Event F → Str) (t : Trace F) : List Str := t.events.map ident

/-- The classifier can name every event of the traces. -/
def Names (c : Classifier) (ident : Event F → Str) (ts : List (Trace F)) : Prop :=
  ∀ t ∈ ts, ∀ e ∈ t.events, classIdentity c e = .ok (ident e)

theorem sameEvents_eq {c : Classifier} {ident : Event F → Str} : ∀ {as bs : List (Event F)}, as.length = bs.length →
    (∀ e ∈ as, classIdentity c e = .ok (ident e)) → (∀ e ∈ bs, classIdentity c e = .ok (ident e)) →
    sameEvents c as bs = .ok (decide (as.map ident = bs.map ident)) := by
  intro as
  induction as with
  | nil =>
    intro bs hl _ _
    cases bs with
    | nil => rfl
    | cons b bs => simp at hl
  | cons a as ih =>
    intro bs hl ha hb
    cases bs with
    | nil => simp at hl
    | cons b bs =>
      have h1 := ha a (List.mem_cons_self ..)
      have h2 := hb b (List.mem_cons_self ..)
      have ih' := ih (bs := bs) (by simpa using hl) (fun e he => ha e (List.mem_cons_of_mem _ he))
        (fun e he => hb e (List.mem_cons_of_mem _ he))
      simp only [sameEvents, sameEventClass, h1, h2, bind, Except.bind]
      by_cases h : ident a = ident b
      · simp [h, ih']
      · simp [h]

theorem sameTrace_eq {c : Classifier} {ident : Event F → Str} {a b : Trace F}
    (ha : ∀ e ∈ a.events, classIdentity c e = .ok (ident e)) (hb : ∀ e ∈ b.events, classIdentity c e = .ok (ident e)) :
    sameTrace c a b = .ok (decide (variant ident a = variant ident b)) := by
  unfold sameTrace
  by_cases h : a.events.length = b.events.length
  · rw [if_neg (by simpa using h), sameEvents_eq h ha hb]
    rfl
  · rw [if_pos h]
    have : variant ident a ≠ variant ident b := fun h' => h (by simpa [variant] using congrArg List.length h')
    simp [this]

theorem alreadyThere_eq {c : Classifier} {ident : Event F → Str} {t : Trace F}
    (ht : ∀ e ∈ t.events, classIdentity c e = .ok (ident e)) : ∀ {new : List (Trace F)}, Names c ident new →
    alreadyThere c t new = .ok (decide (variant ident t ∈ new.map (variant ident))) := by
  intro new
  induction new with
  | nil => intro _; rfl
  | cons b bs ih =>
    intro hn
    have h1 := sameTrace_eq (c := c) (ident := ident) ht (hn b (List.mem_cons_self ..))
    have h2 := ih (fun t ht => hn t (List.mem_cons_of_mem _ ht))
    simp only [alreadyThere, h1, bind, Except.bind]
    by_cases h : variant ident t = variant ident b
    · simp [h]
    · simp [h, h2]

theorem compressLoop_eq {c : Classifier} {ident : Event F → Str} : ∀ (ts u : List (Trace F)), Names c ident (u ++ ts) →
    compressLoop c (firstOfKind (variant ident) u) ts = .ok (firstOfKind (variant ident) (u ++ ts)) := by
  intro ts
  induction ts with
  | nil => intro u _; simp [compressLoop]
  | cons t ts ih =>
    intro u hn
    obtain ⟨h1, _, h3⟩ := firstOfKind_kinds (variant ident) u
    have hnew : Names c ident (firstOfKind (variant ident) u) :=
      fun t ht => hn t (List.mem_append_left _ (h3.subset ht))
    have ht : ∀ e ∈ t.events, classIdentity c e = .ok (ident e) := hn t (by simp)
    have ih' := ih (u ++ [t]) (by simpa using hn)
    rw [firstOfKind_append] at ih'
    simp only [compressLoop, alreadyThere_eq ht hnew, bind, Except.bind]
    by_cases h : variant ident t ∈ u.map (variant ident)
    · have h' := (h1 _).2 h
      rw [if_pos h, List.append_nil] at ih'
      simpa [h'] using ih'
    · have h' : ¬ variant ident t ∈ (firstOfKind (variant ident) u).map (variant ident) := fun hh => h ((h1 _).1 hh)
      rw [if_neg h] at ih'
      simpa [h'] using ih'

/-- **C95**: the compressed log has exactly the traces whose sequence of activities does not occur earlier in
the log, in the order of the log. -/
theorem c95_compress {c : Classifier} {ident : Event F → Str} {log : List (Trace F)} (h : Names c ident log) :
    compress c log = .ok (firstOfKind (variant ident) log) := by
  have := compressLoop_eq (c := c) (ident := ident) log [] (by simpa using h)
  simpa [compress, firstOfKind] using this

/-- **C95**: so no two traces of the compressed log have the same sequence of activities, none is lost, and
the traces are a subsequence of those of the log. -/
theorem c95_variants {c : Classifier} {ident : Event F → Str} {log new : List (Trace F)} (h : Names c ident log)
    (hc : compress c log = .ok new) :
    (new.map (variant ident)).Nodup ∧ (∀ v, v ∈ new.map (variant ident) ↔ v ∈ log.map (variant ident)) ∧ new.Sublist log := by
  rw [c95_compress h] at hc
  injection hc with hc
  subst hc
  obtain ⟨h1, h2, h3⟩ := firstOfKind_kinds (variant ident) log
  exact ⟨h2, h1, h3⟩

end

/-! ## C96 -/

section
variable {ε : Type}

/-- Specification: the events of the case, in the order of the rows. -/
def caseEvents (k : Str) (rows : List (Str × ε)) : List ε := (rows.filter fun r => r.1 = k).map Prod.snd

/-- Specification: one trace for each case, with the events of the case. -/
def CaseTraces (rows : List (Str × ε)) (traces : List (List ε)) : Prop :=
  ∃ cases : List Str, cases.Nodup ∧ (∀ k, k ∈ cases ↔ k ∈ rows.map Prod.fst) ∧ traces = cases.map fun k => caseEvents k rows

theorem csvLoop_blocks (k : Str) : ∀ (rows : List (Str × ε)) (b : List (Str × ε)), b ≠ [] →
    ∃ blocks : List (List (Str × ε)), ∃ c : List (Str × ε), csvLoop k (b.map Prod.snd) rows = ((b ++ c) :: blocks).dropLast.map (List.map Prod.snd) ∧
      (b ++ c ++ blocks.flatten = b ++ rows) ∧ (∀ x ∈ c, x.1 = k) ∧
      (∀ x ∈ blocks, ∃ r t, x = r :: t ∧ r.1 ≠ k ∧ ∀ y ∈ t, y.1 = k) := by
  intro rows
  induction rows with
  | nil =>
    intro b _
    exact ⟨[], [], by simp [csvLoop], by simp, by simp, by simp⟩
  | cons r rest ih =>
    intro b hb
    obtain ⟨case, e⟩ := r
    by_cases h : case = k
    · obtain ⟨blocks, c, h1, h2, h3, h4⟩ := ih (b ++ [(case, e)]) (by simp)
      refine ⟨blocks, (case, e) :: c, ?_, ?_, ?_, h4⟩
      · simp only [csvLoop, if_pos h]
        rw [List.map_append] at h1
        simpa using h1
      · simpa using h2
      · intro x hx
        rcases List.mem_cons.1 hx with rfl | hx
        · exact h
        · exact h3 x hx
    · obtain ⟨blocks, c, h1, h2, h3, h4⟩ := ih [(case, e)] (by simp)
      refine ⟨((case, e) :: c) :: blocks, [], ?_, ?_, by simp, ?_⟩
      · simp only [csvLoop, if_neg h]
        simp only [List.map_cons, List.map_nil, List.singleton_append] at h1
        rw [h1]
        simp
      · simp only [List.append_nil, List.flatten_cons]
        simpa using h2
      · intro x hx
        rcases List.mem_cons.1 hx with rfl | hx
        · exact ⟨_, _, rfl, h, h3⟩
        · exact h4 x hx

/-- **C96**, what is done: the rows are cut before every row whose case is not that of the first row; the log
has the traces of all pieces except the last. -/
theorem c96_exact_partial (k : Str) (e : ε) (rest : List (Str × ε)) :
    ∃ b blocks, csvTraces ((k, e) :: rest) = (b :: blocks).dropLast.map (List.map Prod.snd) ∧
      (b :: blocks).flatten = (k, e) :: rest ∧ (∃ t, b = (k, e) :: t ∧ ∀ y ∈ t, y.1 = k) ∧
      (∀ x ∈ blocks, ∃ r t, x = r :: t ∧ r.1 ≠ k ∧ ∀ y ∈ t, y.1 = k) := by
  obtain ⟨blocks, c, h1, h2, h3, h4⟩ := csvLoop_blocks k rest [(k, e)] (by simp)
  exact ⟨(k, e) :: c, blocks, by simpa [csvTraces] using h1, by simpa using h2, ⟨c, rfl, h3⟩, h4⟩

/-- **C96** is violated by every file: the event of the last row, and with it all events of the last piece, are
missing in the log. -/
theorem c96_last_lost (rows : List (Str × ε)) (h : rows ≠ []) :
    ∃ lost, lost ≠ [] ∧ (csvTraces rows).flatten ++ lost = rows.map Prod.snd := by
  obtain ⟨⟨k, e⟩, rest, rfl⟩ := List.exists_cons_of_ne_nil h
  obtain ⟨b, blocks, h1, h2, ⟨t, hb, _⟩, h4⟩ := c96_exact_partial k e rest
  have hne : b :: blocks ≠ [] := by simp
  refine ⟨((b :: blocks).getLast hne).map Prod.snd, ?_, ?_⟩
  · have hm : (b :: blocks).getLast hne ∈ b :: blocks := List.getLast_mem hne
    rcases List.mem_cons.1 hm with h' | h'
    · rw [h', hb]
      simp
    · obtain ⟨r, t, h'', _⟩ := h4 _ h'
      rw [h'']
      simp
  · rw [h1, ← h2]
    conv_rhs => rw [← List.dropLast_append_getLast hne]
    simp [List.map_flatten]

/-- **C96** is violated by every file. -/
theorem c96_refuted (rows : List (Str × ε)) (h : rows ≠ []) : ¬ CaseTraces rows (csvTraces rows) := by
  rintro ⟨cases, hn, hc, ht⟩
  obtain ⟨lost, hl, he⟩ := c96_last_lost rows h
  have hlen : (csvTraces rows).flatten.length < rows.length := by
    have := congrArg List.length he
    simp only [List.length_append, List.length_map] at this
    have : 0 < lost.length := List.length_pos_iff.2 hl
    omega
  have key : ∀ (cs : List Str) (rs : List (Str × ε)), cs.Nodup → (∀ r ∈ rs, r.1 ∈ cs) →
      (cs.map fun k => caseEvents k rs).flatten.length = rs.length := by
    intro cs
    induction cs with
    | nil =>
      intro rs _ h
      cases rs with
      | nil => rfl
      | cons r rs => exact absurd (h r (List.mem_cons_self ..)) (by simp)
    | cons k cs ih =>
      intro rs hn h
      have hn' := List.nodup_cons.1 hn
      have h1 : (cs.map fun k => caseEvents k rs) = cs.map fun k' => caseEvents k' (rs.filter fun r => r.1 ≠ k) := by
        apply List.map_congr_left
        intro k' hk'
        have hkk : k' ≠ k := fun h => hn'.1 (h ▸ hk')
        unfold caseEvents
        rw [List.filter_filter]
        congr 1
        apply List.filter_congr
        intro r _
        by_cases hr : r.1 = k'
        · simp [hr, hkk]
        · simp [hr]
      rw [List.map_cons, List.flatten_cons, List.length_append, h1, ih _ hn'.2 (by
        intro r hr
        obtain ⟨hr1, hr2⟩ := List.mem_filter.1 hr
        rcases List.mem_cons.1 (h r hr1) with h' | h'
        · simp [h'] at hr2
        · exact h')]
      unfold caseEvents
      rw [List.length_map]
      have := List.length_eq_length_filter_add (l := rs) (fun r => decide (r.1 = k))
      simp only [ne_eq, decide_not]
      omega
  rw [ht] at hlen
  have := key cases rows hn (fun r hr => (hc _).2 (List.mem_map_of_mem hr))
  omega

/-- **C96**: if the rows are sorted by case, the first trace is right, provided there is a second case. -/
theorem c96_first_partial (k : Str) (e : ε) (u : List (Str × ε)) (hu : ∀ r ∈ u, r.1 = k) (r : Str × ε) (hr : r.1 ≠ k)
    (v : List (Str × ε)) : ∃ more, csvTraces ((k, e) :: (u ++ r :: v)) = (e :: u.map Prod.snd) :: more := by
  have : ∀ (u : List (Str × ε)) (tr : List ε), (∀ r ∈ u, r.1 = k) →
      ∃ more, csvLoop k tr (u ++ r :: v) = (tr ++ u.map Prod.snd) :: more := by
    intro u
    induction u with
    | nil =>
      intro tr _
      obtain ⟨c, x⟩ := r
      exact ⟨csvLoop k [x] v, by simp only [List.nil_append, csvLoop, if_neg hr, List.map_nil, List.append_nil]⟩
    | cons y u ih =>
      intro tr hu
      obtain ⟨c, x⟩ := y
      obtain ⟨more, hm⟩ := ih (tr ++ [x]) (fun r hr => hu r (List.mem_cons_of_mem _ hr))
      have hc : c = k := hu (c, x) (List.mem_cons_self ..)
      exact ⟨more, by simp only [List.cons_append, csvLoop, if_pos hc, hm]; simp⟩
  obtain ⟨more, hm⟩ := this u [e] hu
  exact ⟨more, by simpa [csvTraces] using hm⟩

end

/-! ## C97 -/

section
variable {F : Type} [PyFloat F]

/-- Specification: the text of a row. -/
def rowText (cells : List Str) : Str := (py!";").intercalate cells ++ py!"\n"

/-- The column holds texts. -/
def TextColumn (type : Str) : Prop := type = py!"Activity" ∨ type = py!"Resource"

/-- The column holds times. -/
def TimeColumn (type : Str) : Prop := ¬ TextColumn type ∧ isSub py!"%Y" type = true

/-- The key of the attribute of a column. -/
def columnKey (type : Str) : Str := if type ≠ py!"Activity" ∧ type ≠ py!"Resource" ∧ isSub py!"%Y" type = true then py!"time" else type

theorem split_rowText : ∀ (cells : List Str) (x : Str), (∀ c ∈ cells, ';' ∉ c) → ';' ∉ x →
    splitChar ';' (rowText (cells ++ [x])) = cells ++ [x ++ py!"\n"] := by
  intro cells
  induction cells with
  | nil =>
    intro x _ hx
    have : ';' ∉ x ++ py!"\n" := by simp [hx]
    simpa [rowText, List.intercalate] using splitChar_of_not_mem this
  | cons c cells ih =>
    intro x hc hx
    have h := ih x (fun c' h' => hc c' (List.mem_cons_of_mem _ h')) hx
    have e : rowText (c :: cells ++ [x]) = c ++ ';' :: rowText (cells ++ [x]) := by
      cases cells with
      | nil => simp [rowText, List.intercalate]
      | cons d cells => simp [rowText, List.intercalate]
    rw [e, splitChar_append_sep (hc c (List.mem_cons_self ..)), h]
    rfl

theorem csvAttr_key {strptime : Str → Str → Except PyErr DateTime} {type cell : Str} {a : Attr F}
    (h : csvAttr strptime type cell = .ok a) : a.key = columnKey type := by
  unfold csvAttr at h
  by_cases h1 : type = py!"Activity" ∨ type = py!"Resource"
  · rw [if_pos h1] at h
    injection h with h
    subst h
    unfold columnKey
    rcases h1 with rfl | rfl <;> simp [Attr.key]
  · rw [if_neg h1] at h
    have h1' := not_or.1 h1
    by_cases h2 : isSub py!"%Y" type = true
    · rw [if_pos h2, bind_ok] at h
      obtain ⟨d, _, h⟩ := h
      injection h with h
      subst h
      simp only [columnKey]
      rw [if_pos ⟨h1'.1, h1'.2, h2⟩]
      rfl
    · rw [if_neg h2] at h
      simp only [columnKey]
      rw [if_neg (fun h' => h2 h'.2.2)]
      split at h
      · injection h with h
        subst h
        rfl
      · cases h

theorem csvAttrs_get {strptime : Str → Str → Except PyErr DateTime} : ∀ {cells types : List Str} {m m' : AttrMap F},
    csvAttrs strptime m types cells = .ok m' → ((types.take cells.length).map columnKey).Nodup →
    (∀ k, k ∉ (types.take cells.length).map columnKey → dget k m' = dget k m) ∧
    ∀ (i : Nat) (x ty : Str), cells[i]? = some x → types[i]? = some ty →
      ∃ a, csvAttr strptime ty x = .ok a ∧ dget (columnKey ty) m' = some a := by
  intro cells
  induction cells with
  | nil =>
    intro types m m' h _
    cases types <;> (simp only [csvAttrs] at h; injection h with h; subst h; exact ⟨fun _ _ => rfl, by simp⟩)
  | cons c cells ih =>
    intro types m m' h hn
    cases types with
    | nil => simp [csvAttrs] at h
    | cons t types =>
      simp only [csvAttrs, bind_ok] at h
      obtain ⟨a, ha, h⟩ := h
      simp only [List.length_cons, List.take_succ_cons, List.map_cons, List.nodup_cons] at hn
      obtain ⟨g1, g2⟩ := ih h hn.2
      have hk := csvAttr_key ha
      constructor
      · intro k hk'
        simp only [List.length_cons, List.take_succ_cons, List.map_cons, List.mem_cons, not_or] at hk'
        rw [g1 k hk'.2, dget_dset_ne (by rw [hk]; exact fun h => hk'.1 h)]
      · intro i x ty hx hty
        cases i with
        | zero =>
          simp only [List.getElem?_cons_zero, Option.some.injEq] at hx hty
          subst hx hty
          refine ⟨a, ha, ?_⟩
          rw [g1 _ hn.1, ← hk, dget_dset_self]
        | succ i =>
          simp only [List.getElem?_cons_succ] at hx hty
          exact g2 i x ty hx hty

theorem pyInt_lineEnd (s : Str) : pyInt (s ++ py!"\n") = pyInt s := by
  have : intStrip (s ++ py!"\n") = intStrip s := by
    have := intStrip_pad (l := []) (s := s) (r := py!"\n") (by simp) (by decide)
    simpa using this
  simp only [pyInt, this]

/-- **C97**: a row of a file whose columns have different keys.  Numbers are read from the text of the cell.
Texts are the text of the cell, but in the last column with the line end. -/
theorem c97_cells_partial {strptime : Str → Str → Except PyErr DateTime} {types cells : List Str} {last : Str} {m : AttrMap F}
    (hc : ∀ c ∈ cells, ';' ∉ c) (hl : ';' ∉ last) (h2 : 2 ≤ cells.length)
    (hn : ((types.drop 2).map columnKey).Nodup)
    (h : convertLine strptime types (splitChar ';' (rowText (cells ++ [last]))) = .ok m) :
    (∀ (i : Nat) (x ty : Str), 2 ≤ i → cells[i]? = some x → types[i]? = some ty → TextColumn ty →
      dget ty m = some (.mk .literal ty none (.str x) [] [])) ∧
    (∀ ty, types[cells.length]? = some ty → TextColumn ty →
      dget ty m = some (.mk .literal ty none (.str (last ++ py!"\n")) [] [])) ∧
    (∀ (i : Nat) (x ty : Str), 2 ≤ i → (cells ++ [last])[i]? = some x → types[i]? = some ty → ¬ TextColumn ty → ¬ TimeColumn ty →
      ∃ n, pyInt x = some n ∧ dget ty m = some (.mk .discrete ty none (.int n) [] [])) := by
  rw [split_rowText cells last hc hl] at h
  unfold convertLine at h
  have hn' : (((types.drop 2).take ((cells ++ [last ++ py!"\n"]).drop 2).length).map columnKey).Nodup :=
    hn.sublist ((List.take_sublist _ _).map _)
  obtain ⟨_, g⟩ := csvAttrs_get h hn'
  have g' : ∀ (i : Nat) (x ty : Str), 2 ≤ i → (cells ++ [last ++ py!"\n"])[i]? = some x → types[i]? = some ty →
      ∃ a, csvAttr strptime ty x = .ok a ∧ dget (columnKey ty) m = some a := by
    intro i x ty hi hx hty
    refine g (i - 2) x ty ?_ ?_
    · rw [List.getElem?_drop]
      have : 2 + (i - 2) = i := by omega
      rw [this, hx]
    · rw [List.getElem?_drop]
      have : 2 + (i - 2) = i := by omega
      rw [this, hty]
  have text : ∀ {x ty : Str} {a : Attr F}, TextColumn ty → csvAttr strptime ty x = .ok a → columnKey ty = ty ∧
      a = .mk .literal ty none (.str x) [] [] := by
    intro x ty a ht ha
    have ht' : ty = py!"Activity" ∨ ty = py!"Resource" := ht
    rw [csvAttr, if_pos ht'] at ha
    injection ha with ha
    refine ⟨?_, ha.symm⟩
    rcases ht' with rfl | rfl <;> simp [columnKey]
  refine ⟨?_, ?_, ?_⟩
  · intro i x ty hi hx hty ht
    have hlt : i < cells.length := (List.getElem?_eq_some_iff.1 hx).1
    obtain ⟨a, ha, hd⟩ := g' i x ty hi (by rw [List.getElem?_append_left hlt]; exact hx) hty
    obtain ⟨e1, e2⟩ := text ht ha
    rw [e1, e2] at hd
    exact hd
  · intro ty hty ht
    obtain ⟨a, ha, hd⟩ := g' cells.length (last ++ py!"\n") ty h2 (by simp) hty
    obtain ⟨e1, e2⟩ := text ht ha
    rw [e1, e2] at hd
    exact hd
  · intro i x ty hi hx hty ht1 ht2
    have num : ∀ {y : Str} {a : Attr F}, pyInt y = pyInt x → csvAttr strptime ty y = .ok a → dget (columnKey ty) m = some a →
        ∃ n, pyInt x = some n ∧ dget ty m = some (.mk .discrete ty none (.int n) [] []) := by
      intro y a hy ha hd
      have hs : ¬ isSub py!"%Y" ty = true := fun h => ht2 ⟨ht1, h⟩
      have hk : columnKey ty = ty := by
        unfold columnKey
        rw [if_neg (fun h' => hs h'.2.2)]
      have ht1' : ¬ (ty = py!"Activity" ∨ ty = py!"Resource") := ht1
      rw [csvAttr, if_neg ht1', if_neg hs, hy] at ha
      cases hp : pyInt x with
      | none => rw [hp] at ha; cases ha
      | some n =>
        rw [hp] at ha
        injection ha with ha
        rw [hk, ← ha] at hd
        exact ⟨n, rfl, hd⟩
    by_cases hlt : i < cells.length
    · rw [List.getElem?_append_left hlt] at hx
      obtain ⟨a, ha, hd⟩ := g' i x ty hi (by rw [List.getElem?_append_left hlt]; exact hx) hty
      exact num rfl ha hd
    · have : i = cells.length := by
        have := (List.getElem?_eq_some_iff.1 hx).1
        simp only [List.length_append, List.length_singleton] at this
        omega
      subst this
      simp only [List.getElem?_append_right (Nat.le_refl _), Nat.sub_self, List.getElem?_cons_zero, Option.some.injEq] at hx
      subst hx
      obtain ⟨a, ha, hd⟩ := g' cells.length (last ++ py!"\n") ty h2 (by simp) hty
      exact num (pyInt_lineEnd last) ha hd

/-- **C97** is violated by every text in the last column: it is read with the line end. -/
theorem c97_refuted {strptime : Str → Str → Except PyErr DateTime} {types cells : List Str} {last : Str} {m : AttrMap F}
    (hc : ∀ c ∈ cells, ';' ∉ c) (hl : ';' ∉ last) (h2 : 2 ≤ cells.length)
    (hn : ((types.drop 2).map columnKey).Nodup) {ty : Str} (hty : types[cells.length]? = some ty) (ht : TextColumn ty)
    (h : convertLine strptime types (splitChar ';' (rowText (cells ++ [last]))) = .ok m) :
    ∃ a, dget ty m = some a ∧ a.val ≠ .str last := by
  refine ⟨_, (c97_cells_partial hc hl h2 hn h).2.1 ty hty ht, ?_⟩
  simp [Attr.val]

end

/-! ## Examples -/

def exEvent (a : Str) : Event ToyFloat := ⟨0, [(py!"Activity", .mk .literal py!"Activity" none (.str a) [] [])]⟩

def activityClassifier : Classifier := ⟨py!"activity", [py!"Activity"]⟩

example : (compress activityClassifier [⟨[], [exEvent py!"a", exEvent py!"b"]⟩, ⟨[], [exEvent py!"a"]⟩,
    ⟨[], [exEvent py!"a", exEvent py!"b"]⟩]).map List.length = .ok 2 := by decide +kernel

example : Names activityClassifier (fun e => match dget py!"Activity" e.attrs with | some (.mk _ _ _ (.str s) _ _) => s | _ => [])
    [⟨[], [exEvent py!"a", exEvent py!"b"]⟩] := by
  intro t ht e he
  simp only [List.mem_singleton] at ht
  subst ht
  simp only [List.mem_cons, List.not_mem_nil, or_false] at he
  rcases he with rfl | rfl <;> rfl

/-- Three cases of two events each: the second event of the second case becomes a trace of its own, and the
last event is lost. -/
example : csvTraces [(py!"1", 'a'), (py!"1", 'b'), (py!"2", 'c'), (py!"2", 'd'), (py!"3", 'e'), (py!"3", 'f')] =
    [['a', 'b'], ['c'], ['d'], ['e']] := by decide

/-- A file with a single case gives an empty log. -/
example : csvTraces [(py!"1", 'a'), (py!"1", 'b')] = [] := by decide

example : (convertLine (F := ToyFloat) (fun _ _ => .error .valueError) [py!"Case", py!"Id", py!"Cost", py!"Resource"]
    (splitChar ';' (rowText [py!"1", py!"7", py!"50", py!"Pete"]))).toOption.map (fun m => m.map fun p => (p.1, p.2.val)) =
    some [(py!"Cost", .int 50), (py!"Resource", .str py!"Pete\n")] := by decide +kernel

end Opy
