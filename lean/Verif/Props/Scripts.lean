import Verif.Props.Csv
import Verif.Props.Examples2
import Verif.Props.Resave
import Verif.Props.Bytes
/-
C150 to C152: the files that the example scripts write.
-/
set_option linter.unusedSectionVars false
namespace Opy

section
variable {F : Type} [PyFloat F]

/-! ## C150: example/Csv_to_xes_file.py -/

/-- What the file holds of the attribute made from a cell: the text (before Python 3.13 with blanks for tabs and line ends), the number,
or the time, taken as UTC. -/
def cellBack (modern : Bool) : Attr F → Attr F
  | .mk k key e (.str s) m c => .mk k key e (.str (valueBack modern s)) m c
  | .mk k key e (.dt d) m c => .mk k key e (.dt { d with tz := some 0 }) m c
  | a => a

/-- A log made by the script: nothing but traces without attributes. -/
def csvContent (traces : List (List (AttrMap F))) : Content F := ⟨[], [], [], [], [], [], traces.map fun es => ([], es)⟩

/-- The column names that become keys are neither qualified nor changed by the file, and the texts can be written. -/
structure CsvTexts (modern : Bool) (names : List Str) (rows : List (CsvRow F)) : Prop where
  keys : ∀ n ∈ names, ¬ py!"yyyy" <:+: n → ':' ∉ n ∧ valueBack modern n = n ∧ LegalText n
  cells : ∀ r ∈ rows, ∀ c ∈ r.cells, LegalText c

/-- The parts of an attribute made from a cell. -/
theorem cell_fit {mgr : ExtMgr} {modern : Bool} {name cell : Str} {a : Attr F}
    (h : CellSays name cell a ∨ LastSays name cell a) (hy : ¬ py!"yyyy" <:+: name → ':' ∉ name ∧ valueBack modern name = name ∧ LegalText name) (hc : LegalText cell) :
    normAttr mgr (valueBack modern) a = cellBack modern a ∧ Typed a ∧ LegalAttr a ∧ (cellBack modern a).key = a.key := by
  have hline : LegalText (cell ++ py!"\n") := by
    intro c hm
    rcases List.mem_append.1 hm with h | h
    · exact hc c h
    · simp only [List.mem_singleton] at h
      exact .inr (.inl (by rw [h]; rfl))
  have htime : valueBack modern py!"time" = py!"time" := (c112_partial modern _).2 (.inr (by decide))
  have htext : name = py!"Activity" ∨ name = py!"Resource" → ¬ py!"yyyy" <:+: name := by
    rintro (rfl | rfl) <;> rw [← isSub_infix] <;> decide
  rcases h with h | h
  · cases h with
    | text ht =>
      obtain ⟨hk1, hk2, hn⟩ := hy (htext ht)
      exact ⟨by simp [normAttr, Kind.isCollection, hk2, extFor, hk1, normVal, normVals, rekey, cellBack],
        by simp [Typed, GoodVal, Kind.isCollection, TypedMap], by simp [LegalAttr, LegalVal, hn, hc, Kind.isCollection, LegalMap], rfl⟩
    | number _ _ hny _ _ =>
      obtain ⟨hk1, hk2, hn⟩ := hy hny
      exact ⟨by simp [normAttr, Kind.isCollection, hk2, extFor, hk1, normVal, normVals, rekey, cellBack],
        by simp [Typed, GoodVal, Kind.isCollection, TypedMap], by simp [LegalAttr, LegalVal, hn, Kind.isCollection, LegalMap], rfl⟩
    | @time pre l v h1 h2 _ _ =>
      refine ⟨?_, ?_, ?_, rfl⟩
      · simp only [normAttr, Kind.isCollection, Bool.false_eq_true, if_false, htime, extFor, normVal, normVals, rekey, cellBack, List.foldl_nil]
        rw [if_neg (by decide)]
        simp [toMillisAware, timeOf]
      · simp only [Typed, GoodVal, Kind.isCollection, Bool.false_eq_true, if_false, TypedMap, and_true]
        obtain ⟨e1, e2, e3, e4, e5, e6, e7⟩ := h2.exist
        have hy4 : (timeOf v l).year ≤ 9999 := by
          have h := number_lt (v .yyyy)
          have h' : (v .yyyy).length = 4 := Nat.le_antisymm h2.year.2.1 h2.year.1
          rw [h'] at h
          show number (v .yyyy) ≤ 9999
          omega
        exact ⟨⟨e1, hy4⟩, ⟨e2, e3⟩, ⟨e4, e5⟩, ⟨e6, e7, by simp [timeOf], by simp [timeOf]⟩, by simp [timeOf]⟩
      · simp only [LegalAttr, LegalVal, Kind.isCollection, Bool.false_eq_true, if_false, LegalMap, and_true]
        exact legalText_plain (by decide)
  · cases h with
    | text ht =>
      obtain ⟨hk1, hk2, hn⟩ := hy (htext ht)
      exact ⟨by simp [normAttr, Kind.isCollection, hk2, extFor, hk1, normVal, normVals, rekey, cellBack],
        by simp [Typed, GoodVal, Kind.isCollection, TypedMap], by simp [LegalAttr, LegalVal, hn, hline, Kind.isCollection, LegalMap], rfl⟩
    | number _ _ hny _ _ =>
      obtain ⟨hk1, hk2, hn⟩ := hy hny
      exact ⟨by simp [normAttr, Kind.isCollection, hk2, extFor, hk1, normVal, normVals, rekey, cellBack],
        by simp [Typed, GoodVal, Kind.isCollection, TypedMap], by simp [LegalAttr, LegalVal, hn, Kind.isCollection, LegalMap], rfl⟩

theorem row_cells {names cells : List Str} {as : List (Attr F)} (h : RowSays names cells as) : ∀ a ∈ as, ∃ n ∈ names, ∃ c ∈ cells,
    CellSays n c a ∨ LastSays n c a := by
  induction h with
  | last h =>
    intro a ha
    rw [List.mem_singleton] at ha
    subst ha
    exact ⟨_, by simp, _, by simp, .inr h⟩
  | cons h _ ih =>
    intro a ha
    rcases List.mem_cons.1 ha with rfl | ha
    · exact ⟨_, by simp, _, by simp, .inl h⟩
    · obtain ⟨n, hn, c, hc, h⟩ := ih a ha
      exact ⟨n, by simp [hn], c, by simp [hc], h⟩

/-- C150: the XES file that the script writes for a CSV file can be loaded; the log has the traces that the script makes (C96, C132: the
rows are cut before every row whose case is not that of the first, and the last piece is missing), and their events have the texts,
the numbers and the times of the cells. -/
theorem c150_file (hf : FloatText F) (mgr : ExtMgr) (modern : Bool) {ext : Str → Str → Except PyErr DateTime} {h0 h1 : Str} {names : List Str}
    {r : CsvRow F} {rows : List (CsvRow F)} (h : CsvFile h0 h1 names (r :: rows)) (ht : CsvTexts modern names (r :: rows)) :
    ∃ b blocks, (b :: blocks).flatten = r :: rows ∧ (∃ t, b = r :: t ∧ ∀ y ∈ t, y.case = r.case) ∧
      (∀ x ∈ blocks, ∃ q t, x = q :: t ∧ q.case ≠ r.case ∧ ∀ y ∈ t, y.case = r.case) ∧
      ∃ traces, csvScript (fun c f => strptimeFmt ext f c) (fileText (h0 :: h1 :: names) ((r :: rows).map CsvRow.all)) = .ok traces ∧
        ∀ L : Log F, L.content = csvContent traces → FileHolds mgr modern L ⟨[], [], [], [], [], xesVersion,
          (b :: blocks).dropLast.map fun t => ([], t.map fun q => q.attrs.map fun a => (a.key, cellBack modern a))⟩ := by
  obtain ⟨b, blocks, e1, e2, e3, e4⟩ := c132_file (ext := ext) h
  refine ⟨b, blocks, e2, e3, e4, _, e1, fun L hL => ?_⟩
  have hmem : ∀ t ∈ (b :: blocks).dropLast, ∀ q ∈ t, q ∈ r :: rows := fun t ht q hq => by
    rw [← e2]
    exact List.mem_flatten.2 ⟨t, (List.dropLast_sublist _).subset ht, hq⟩
  have hfit : ∀ q ∈ r :: rows, ∀ a ∈ q.attrs,
      normAttr mgr (valueBack modern) a = cellBack modern a ∧ Typed a ∧ LegalAttr a ∧ (cellBack modern a).key = a.key := by
    intro q hq a ha
    obtain ⟨n, hn, c, hc, hs⟩ := row_cells (h.meaning q hq) a ha
    exact cell_fit hs (ht.keys n hn) (ht.cells q hq c hc)
  have hmaps : ∀ q ∈ r :: rows, TypedMap q.map ∧ LegalMap q.map ∧
      rekey (normVals mgr (valueBack modern) q.map) = q.attrs.map fun a => (a.key, cellBack modern a) := by
    intro q hq
    refine ⟨typedMap_iff.2 fun p hp => ?_, legalMap_iff.2 fun p hp => ?_, ?_⟩
    · obtain ⟨a, ha, rfl⟩ := List.mem_map.1 hp
      exact (hfit q hq a ha).2.1
    · obtain ⟨a, ha, rfl⟩ := List.mem_map.1 hp
      exact (hfit q hq a ha).2.2.1
    · have e : normVals mgr (valueBack modern) q.map = (q.attrs.map fun a => (a.key, cellBack modern a)).map Prod.snd := by
        rw [normVals_map, CsvRow.map, List.map_map, List.map_map]
        exact List.map_congr_left fun a ha => (hfit q hq a ha).1
      rw [e]
      apply rekey_vals
      refine ⟨?_, fun p hp => ?_⟩
      · have : dkeys (q.attrs.map fun a => (a.key, cellBack modern a)) = q.attrs.map Attr.key := by
          simp [dkeys]
        rw [this]
        exact h.keys q hq
      · obtain ⟨a, ha, rfl⟩ := List.mem_map.1 hp
        exact (hfit q hq a ha).2.2.2.symm
  obtain ⟨attrs, exts, cls, gt, ge, feats, traces⟩ := L
  simp only [Log.content, csvContent, Content.mk.injEq, List.map_map] at hL
  obtain ⟨rfl, rfl, rfl, rfl, rfl, rfl, htr⟩ := hL
  have hev : ∀ t ∈ traces, t.attrs = [] ∧ ∀ e ∈ t.events, ∃ q ∈ r :: rows, e.attrs = q.map := by
    intro t htt
    have : (t.attrs, t.events.map Event.attrs) ∈ (b :: blocks).dropLast.map ((fun es => ([], es)) ∘ List.map CsvRow.map) := by
      rw [← htr]
      exact List.mem_map.2 ⟨t, htt, rfl⟩
    obtain ⟨u, hu, hq⟩ := List.mem_map.1 this
    simp only [Function.comp, Prod.mk.injEq] at hq
    refine ⟨hq.1.symm, fun e he => ?_⟩
    have : e.attrs ∈ u.map CsvRow.map := by rw [hq.2]; exact List.mem_map_of_mem he
    obtain ⟨q, hqu, hqe⟩ := List.mem_map.1 this
    exact ⟨q, hmem u hu q hqu, hqe.symm⟩
  have hw : WritableLog (⟨[], [], [], [], [], [], traces⟩ : Log F) := ⟨trivial, trivial, trivial, fun t htt => by
    obtain ⟨h1, h2⟩ := hev t htt
    refine ⟨by rw [h1]; trivial, fun e he => ?_⟩
    obtain ⟨q, hq, hqe⟩ := h2 e he
    rw [hqe]
    exact (hmaps q hq).1⟩
  have hl : LegalLog (⟨[], [], [], [], [], [], traces⟩ : Log F) := ⟨trivial, by simp, by simp, trivial, trivial, fun t htt => by
    obtain ⟨h1, h2⟩ := hev t htt
    refine ⟨by rw [h1]; trivial, fun e he => ?_⟩
    obtain ⟨q, hq, hqe⟩ := h2 e he
    rw [hqe]
    exact (hmaps q hq).2.1⟩
  have := c110_file hf mgr modern hw hl
  have hnorm : norm mgr (valueBack modern) (Log.content (⟨[], [], [], [], [], [], traces⟩ : Log F)) = ⟨[], [], [], [], [], xesVersion,
      (b :: blocks).dropLast.map fun t => ([], t.map fun q => q.attrs.map fun a => (a.key, cellBack modern a))⟩ := by
    simp only [norm, Log.content, normVals, rekey, List.foldl_nil, List.filterMap_nil, distinctExts, flatList, htr, List.map_map, Content.mk.injEq, true_and]
    apply List.map_congr_left
    intro t ht
    simp only [Function.comp, normVals, List.foldl_nil, List.map_map, Prod.mk.injEq, true_and]
    apply List.map_congr_left
    intro q hq
    exact (hmaps q (hmem t ht q hq)).2.2
  rw [hnorm] at this
  exact this

/-! ## C151: example/Anonymize_a_log.py -/

theorem fit_hide {mgr : ExtMgr} {ws : Str → Str} (hc : Channel ws) {a : Attr F} (h : Fit mgr ws a) (hk : NamesPerson a → a.kind = .literal) :
    Fit mgr ws (hide a) := by
  obtain ⟨k, key, e, v, m, c⟩ := a
  unfold hide
  by_cases hp : NamesPerson (Attr.mk k key e v m c)
  · obtain rfl : k = .literal := hk hp
    have hu : Passes ws py!"UNKNOWN" := hc.passes_plain (by decide)
    obtain ⟨h1, h2, h3⟩ := h
    simp only [if_pos hp]
    refine ⟨?_, ?_, ?_⟩
    · simp only [normAttr, Kind.isCollection, Bool.false_eq_true, if_false, Attr.cut, Attr.mk.injEq, true_and] at h1 ⊢
      refine ⟨h1.1, h1.2.1, ?_, h1.2.2.2⟩
      simp only [normVal, cutVal, hu.2]
    · simp only [Typed] at h2 ⊢
      exact ⟨trivial, h2.2⟩
    · simp only [LegalAttr] at h3 ⊢
      exact ⟨h3.1, hu.1, h3.2.2⟩
  · simp only [if_neg hp]
    exact h

theorem hide_bare {a : Attr F} (h : a.bare) : (hide a).bare := by
  obtain ⟨k, key, e, v, m, c⟩ := a
  exact h

theorem fitMap_hide {mgr : ExtMgr} {ws : Str → Str} (hc : Channel ws) {m : AttrMap F} (h : FitMap mgr ws m)
    (hk : ∀ a ∈ m.map Prod.snd, NamesPerson a → a.kind = .literal) : FitMap mgr ws (m.map fun p => (p.1, hide p.2)) := by
  refine ⟨⟨?_, ?_⟩, ?_⟩
  · have : dkeys (m.map fun p => (p.1, hide p.2)) = dkeys m := by simp [dkeys]
    rw [this]
    exact h.own.1
  · intro p hp
    obtain ⟨q, hq, rfl⟩ := List.mem_map.1 hp
    rw [(hide_parts q.2).1]
    exact h.own.2 q hq
  · intro p hp
    obtain ⟨q, hq, rfl⟩ := List.mem_map.1 hp
    exact fit_hide hc (h.each q hq) (hk _ (List.mem_map_of_mem hq))

theorem fitLog_hide {mgr : ExtMgr} {ws : Str → Str} (hc : Channel ws) {L : Log F} (h : FitLog mgr ws L)
    (hk : ∀ a ∈ innerAttrs L, NamesPerson a → a.kind = .literal) : FitLog mgr ws (hideLog L) where
  attrs := h.attrs
  globalTrace a ha := by
    obtain ⟨b, hb, rfl⟩ := List.mem_map.1 ha
    exact ⟨fit_hide hc (h.globalTrace b hb).1 (hk b (by simp [innerAttrs, hb])), hide_bare (h.globalTrace b hb).2⟩
  globalEvent a ha := by
    obtain ⟨b, hb, rfl⟩ := List.mem_map.1 ha
    exact ⟨fit_hide hc (h.globalEvent b hb).1 (hk b (by simp [innerAttrs, hb])), hide_bare (h.globalEvent b hb).2⟩
  traces t ht := by
    obtain ⟨u, hu, rfl⟩ := List.mem_map.1 ht
    refine ⟨fitMap_hide hc (h.traces u hu).1 fun a ha => hk a ?_, fun e he => ?_⟩
    · exact List.mem_append_right _ (List.mem_append_right _ (List.mem_flatMap.2 ⟨u, hu, List.mem_append_left _ ha⟩))
    · obtain ⟨f, hf, rfl⟩ := List.mem_map.1 he
      refine fitMap_hide hc ((h.traces u hu).2 f hf) fun a ha => hk a ?_
      exact List.mem_append_right _ (List.mem_append_right _ (List.mem_flatMap.2 ⟨u, hu, List.mem_append_right _
        (List.mem_flatMap.2 ⟨f, hf, ha⟩)⟩))
  found := h.found
  uris := h.uris
  classifiers := h.classifiers

/-- C151: when the attributes named Resource or org:resource (of the traces, the events and the globals) are all texts, the script goes
through for every file that is loaded, and the file it writes holds the log with these texts replaced (timestamps in milliseconds, C139). -/
theorem c151_texts (hf : FloatText F) {mgr : ExtMgr} (hm : SoundMgr mgr) (modern : Bool) {text : Str} {es : List MSax} {x : Xml} {L : Log F}
    (ht : readXml text = .ok es) (he : xesEvents es = x.sax) (hx : DocSays mgr x L.content) (ho : modern = true ∨ x.Texts OneLine)
    (hk : ∀ a ∈ innerAttrs L, NamesPerson a → a.kind = .literal) :
    anonymize L = .ok (hideLog L) ∧ FileHolds mgr modern (hideLog L) (hideLog L).content.again := by
  have h := doc_fitLog hm modern hx (sax_texts fun t as h => by
    rw [← he] at h
    exact xesEvents_legal (readXml_legal ht) t as h) ho
  obtain ⟨h1, h2, h3⟩ := fitLog_same hm modern (fitLog_hide (valueChannel modern) h hk)
  refine ⟨(c98_exact_partial _ _).2 ⟨fun a ha hp => ?_, rfl⟩, ?_⟩
  · rw [hk a ha hp]
    rfl
  · rw [← h3]
    exact c110_file hf mgr modern h1 h2

/-! ## C152: example/filter_compress_log.py and example/Cluster_a_log.py -/

theorem fitLog_traces {mgr : ExtMgr} {ws : Str → Str} {L : Log F} (h : FitLog mgr ws L) {ts : List (Trace F)} (hs : ∀ t ∈ ts, t ∈ L.traces) :
    FitLog mgr ws { L with traces := ts } :=
  ⟨h.attrs, h.globalTrace, h.globalEvent, fun t ht => h.traces t (hs t ht), h.found, h.uris, h.classifiers⟩

theorem fitLog_cluster {mgr : ExtMgr} {ws : Str → Str} {L : Log F} (h : FitLog mgr ws L) {ts : List (Trace F)} (hs : ∀ t ∈ ts, t ∈ L.traces) :
    FitLog mgr ws { clusterBase L with traces := ts } :=
  ⟨h.attrs, by simp [clusterBase], by simp [clusterBase], fun t ht => h.traces t (hs t ht), h.found, h.uris, by simp [clusterBase]⟩

/-- C152: the compressed file that the script writes holds the log of the file it was given, with the first trace of every variant
(timestamps in milliseconds, C139). -/
theorem c152_compress (hf : FloatText F) {mgr : ExtMgr} (hm : SoundMgr mgr) (modern : Bool) {text : Str} {es : List MSax} {x : Xml} {L : Log F}
    (ht : readXml text = .ok es) (he : xesEvents es = x.sax) (hx : DocSays mgr x L.content) (ho : modern = true ∨ x.Texts OneLine)
    {z : Gzip} (hz : z.Sound) {c : Classifier} {ident : Event F → Str} (hn : Names c ident L.traces) :
    ∃ new, compress c L.traces = .ok new ∧ new = firstOfKind (variant ident) L.traces ∧
      BytesHold (saveXesGz z modern { L with traces := new }) (loadXesGz z) mgr (Log.content { L with traces := new }).again := by
  have h := doc_fitLog hm modern hx (sax_texts fun t as h => by
    rw [← he] at h
    exact xesEvents_legal (readXml_legal ht) t as h) ho
  have hsub := (c95_variants hn (c95_compress hn)).2.2
  obtain ⟨h1, h2, h3⟩ := fitLog_same hm modern (fitLog_traces h fun t ht => hsub.subset ht)
  refine ⟨_, c95_compress hn, rfl, c118_compressed hz ?_⟩
  rw [← h3]
  exact c110_file hf mgr modern h1 h2

/-- C152: so do the files of the clusters: each trace is in exactly one of them (C100). -/
theorem c152_cluster (hf : FloatText F) {mgr : ExtMgr} (hm : SoundMgr mgr) (modern : Bool) {text : Str} {es : List MSax} {x : Xml} {L : Log F}
    (ht : readXml text = .ok es) (he : xesEvents es = x.sax) (hx : DocSays mgr x L.content) (ho : modern = true ∨ x.Texts OneLine)
    {order : List Str → List Str} {c : Classifier} {ident : Event F → Str} {n : Nat} {predict : List (List Nat) → List Nat → Nat}
    (hn : Names c ident L.traces) {ls : List (Log F)} (hc : clusterLogs order c n predict L = .ok ls) :
    (ls.flatMap fun l => l.traces).Perm L.traces ∧ ∀ l ∈ ls, FileHolds mgr modern l l.content.again := by
  have h := doc_fitLog hm modern hx (sax_texts fun t as h => by
    rw [← he] at h
    exact xesEvents_legal (readXml_legal ht) t as h) ho
  refine ⟨(c100_partition hn hc).2.1, fun l hl => ?_⟩
  obtain ⟨label, _, hiff⟩ := c100_clusters (order := order) (n := n) (predict := predict) hn
  obtain ⟨_, rfl⟩ := (hiff ls).1 hc
  obtain ⟨i, _, rfl⟩ := List.mem_map.1 hl
  obtain ⟨h1, h2, h3⟩ := fitLog_same hm modern (fitLog_cluster h (ts := L.traces.filter fun t => label t = i)
    fun t ht => (List.mem_filter.1 ht).1)
  rw [← h3]
  exact c110_file hf mgr modern h1 h2

end

/-! ## C151: persons that are not texts -/

/-- A log with one event that has a resource. -/
def resLog (k : Kind) (v : PyVal ToyFloat) : Log ToyFloat where
  attrs := []
  extensions := []
  classifiers := []
  globalTrace := []
  globalEvent := []
  features := []
  traces := [⟨[], [⟨0, [(py!"Resource", .mk k py!"Resource" none v [] [])]⟩]⟩]

/-- What comes of the script and of loading its file: the error of the script, the error of loading, or the values that are loaded. -/
def anonOutcome (k : Kind) (v : PyVal ToyFloat) : Except PyErr (Except PyErr (List (PyVal ToyFloat))) :=
  (anonymize (resLog k v) >>= saveXes false).map fun t =>
    (loadXes none (stdFactory ToyFloat fun _ => 0) ((Mgr.run standardExts).view .ok) ⟨[], 0⟩ t).map fun p =>
      p.2.objs.filterMap fun o => match o with | .attr _ _ _ v _ _ => some v | _ => none

/-- Equality of such outcomes, as a Boolean. -/
def anonSame : Except PyErr (Except PyErr (List (PyVal ToyFloat))) → Except PyErr (Except PyErr (List (PyVal ToyFloat))) → Bool
  | .error a, .error b => a = b
  | .ok (.error a), .ok (.error b) => a = b
  | .ok (.ok a), .ok (.ok b) => a = b
  | _, _ => false

theorem anonSame_iff {a b : Except PyErr (Except PyErr (List (PyVal ToyFloat)))} : anonSame a b = true ↔ a = b := by
  rcases a with a | (a | a) <;> rcases b with b | (b | b) <;> simp [anonSame]

theorem anonOutcome_value (k : Kind) (v w : PyVal ToyFloat) : anonOutcome k v = anonOutcome k w := by
  have h : anonymize (resLog k v) = anonymize (resLog k w) := by cases k <;> rfl
  simp only [anonOutcome, h]

/-- C151: for a text, the file says UNKNOWN; for an integer, a number or an identifier, the script ends without an error, but its file cannot be
loaded; for a boolean, the file says false; for a timestamp, the script fails; for a list or a container too, since these have no `set_value`. -/
theorem c151_refuted (v : PyVal ToyFloat) : anonOutcome .literal v = .ok (.ok [.str py!"UNKNOWN"]) ∧
    anonOutcome .discrete v = .ok (.error .valueError) ∧ anonOutcome .continuous v = .ok (.error .valueError) ∧
    anonOutcome .id v = .ok (.error .valueError) ∧ anonOutcome .boolean v = .ok (.ok [.bool false]) ∧
    anonOutcome .timestamp v = .error .attributeError ∧ anonOutcome .list v = .error .attributeError ∧
    anonOutcome .container v = .error .attributeError := by
  simp only [anonOutcome_value _ v .none]
  and_intros <;> exact anonSame_iff.1 (by decide +kernel)

/-! ## Examples -/

theorem exCsvFile : CsvFile py!"Case ID" py!"Event ID" [py!"dd-MM-yyyy:HH.mm", py!"Activity", py!"Costs"] [exRow, { exRow with case := py!"2" }] where
  header := by unfold CleanRow; decide
  clean := by simp only [List.mem_cons, List.not_mem_nil, or_false, forall_eq_or_imp, forall_eq]; unfold CleanRow; decide
  meaning := by
    have h : RowSays [py!"dd-MM-yyyy:HH.mm", py!"Activity", py!"Costs"] exRow.cells exRow.attrs := by
      refine .cons (.time exName_ok exNumbers_ok (by decide) (by decide)) (.cons (.text (by decide)) (.last (.number (by decide) (by decide) ?_ ?_ ?_)))
      · rw [← isSub_infix]; decide
      · rw [← isSub_infix]; decide
      · exact pyInt_iff.1 (by decide +kernel)
    simp only [List.mem_cons, List.not_mem_nil, or_false, forall_eq_or_imp, forall_eq]
    exact ⟨h, h⟩
  keys := by simp only [List.mem_cons, List.not_mem_nil, or_false, forall_eq_or_imp, forall_eq]; decide

/-- The hypotheses of `c150_file` hold for a file with a time, a text and a number. -/
example (modern : Bool) : CsvTexts modern [py!"dd-MM-yyyy:HH.mm", py!"Activity", py!"Costs"] [exRow, { exRow with case := py!"2" }] where
  keys n hn hy := by
    have h : ':' ∉ n ∧ ('\t' ∉ n ∧ '\n' ∉ n ∧ '\r' ∉ n) ∧ ∀ c ∈ n, 32 ≤ c.toNat ∧ c.toNat ≤ 126 := by
      simp only [List.mem_cons, List.not_mem_nil, or_false] at hn
      rcases hn with rfl | rfl | rfl
      · exact absurd (isSub_infix.1 (by decide)) hy
      · decide
      · decide
    exact ⟨h.1, (c112_partial modern _).2 (.inr h.2.1), legalText_plain h.2.2⟩
  cells r hr c hc := legalText_plain (by
    have : ∀ r ∈ [exRow, { exRow with case := py!"2" }], ∀ c ∈ r.cells, ∀ x ∈ c, 32 ≤ x.toNat ∧ x.toNat ≤ 126 := by
      intro r hr
      simp only [List.mem_cons, List.not_mem_nil, or_false] at hr
      rcases hr with rfl | rfl <;> decide
    exact this r hr c hc)

/-- A file with two events done by Pete, and one by Sue in a trace of the same kind. -/
def teamDoc : Xml := .elem py!"log" []
  [.elem py!"trace" []
    [.elem py!"event" [] [.elem py!"string" [(py!"key", py!"Activity"), (py!"value", py!"pay")] [],
      .elem py!"string" [(py!"key", py!"Resource"), (py!"value", py!"Pete")] []]],
   .elem py!"trace" []
    [.elem py!"event" [] [.elem py!"string" [(py!"key", py!"Activity"), (py!"value", py!"pay")] [],
      .elem py!"string" [(py!"key", py!"Resource"), (py!"value", py!"Sue")] []]]]

def teamEvent (who : Str) : AttrMap ToyFloat :=
  [(py!"Activity", .mk .literal py!"Activity" none (.str py!"pay") [] []), (py!"Resource", .mk .literal py!"Resource" none (.str who) [] [])]

def teamLog : Log ToyFloat where
  attrs := []
  extensions := []
  classifiers := []
  globalTrace := []
  globalEvent := []
  features := []
  traces := [⟨[], [⟨0, teamEvent py!"Pete"⟩]⟩, ⟨[], [⟨1, teamEvent py!"Sue"⟩]⟩]

theorem teamDoc_says (mgr : ExtMgr) : DocSays mgr teamDoc teamLog.content where
  root := by decide
  known := by decide
  plain := by decide
  distinct := by decide
  features := by decide
  attrs := ⟨[], .nil, rfl⟩
  traces := by
    have ev : ∀ who, EventSays mgr (.elem py!"event" [] [.elem py!"string" [(py!"key", py!"Activity"), (py!"value", py!"pay")] [],
        .elem py!"string" [(py!"key", py!"Resource"), (py!"value", who)] []]) (teamEvent who) := fun who =>
      ⟨[.mk .literal py!"Activity" none (.str py!"pay") [] [], .mk .literal py!"Resource" none (.str who) [] []],
        .cons (.mk (cs := []) (.string _) .nil) (.cons (.mk (cs := []) (.string _) .nil) .nil), rfl⟩
    exact .cons ⟨by decide, ⟨[], .nil, rfl⟩, .cons (ev _) .nil⟩ (.cons ⟨by decide, ⟨[], .nil, rfl⟩, .cons (ev _) .nil⟩ .nil)
  extensions := ⟨[], .nil, by decide⟩
  classifiers := by decide
  globalTrace := .nil
  globalEvent := .nil

def teamText : Str := py!"<log><trace><event><string key='Activity' value='pay'/><string key='Resource' value='Pete'/></event></trace>\n<trace><event><string key='Activity' value='pay'/><string key='Resource' value='Sue'/></event></trace></log>"

theorem teamText_reads : ∃ es, readXml teamText = .ok es ∧ xesEvents es = teamDoc.sax := by
  have h : (readXml teamText).toOption.map xesEvents = some teamDoc.sax := by decide +kernel
  cases e : readXml teamText with
  | error x => rw [e] at h; cases h
  | ok es => rw [e] at h; exact ⟨es, rfl, by simpa [Except.toOption] using h⟩

theorem teamDoc_line : teamDoc.Texts OneLine := by
  simp only [teamDoc, Xml.Texts, textsAll, OneLine]
  and_intros <;> trivial

/-- C151 for this file. -/
example : anonymize teamLog = .ok (hideLog teamLog) ∧
    FileHolds ((Mgr.run standardExts).view .ok) false (hideLog teamLog) (hideLog teamLog).content.again := by
  obtain ⟨es, h1, h2⟩ := teamText_reads
  refine c151_texts toyFloatText (standard_sound _) false h1 h2 (teamDoc_says _) (.inr teamDoc_line) ?_
  simp [innerAttrs, teamLog, teamEvent, Attr.kind]

/-- C152 for this file: the two traces are of one kind. -/
example {z : Gzip} (hz : z.Sound) : ∃ new, compress ⟨py!"activity", [py!"Activity"]⟩ teamLog.traces = .ok new ∧ new.length = 1 ∧
    BytesHold (saveXesGz z false { teamLog with traces := new }) (loadXesGz z) ((Mgr.run standardExts).view .ok)
      (Log.content { teamLog with traces := new }).again := by
  obtain ⟨es, h1, h2⟩ := teamText_reads
  have hn : Names ⟨py!"activity", [py!"Activity"]⟩ (fun _ => py!"pay") teamLog.traces := by
    simp only [Names, teamLog, List.mem_cons, List.not_mem_nil, or_false, forall_eq_or_imp, forall_eq]
    exact ⟨rfl, rfl⟩
  obtain ⟨new, h3, h4, h5⟩ := c152_compress toyFloatText (standard_sound .ok) false h1 h2 (teamDoc_says _) (.inr teamDoc_line) hz hn
  refine ⟨new, h3, ?_, h5⟩
  rw [h4]
  decide

/-- ... and with two clusters, of which one is empty. -/
example : ∃ ls, clusterLogs id ⟨py!"activity", [py!"Activity"]⟩ 2 (fun _ _ => 1) teamLog = .ok ls ∧ ls.map (fun l => l.traces.length) = [0, 2] ∧
    ∀ l ∈ ls, FileHolds ((Mgr.run standardExts).view .ok) false l l.content.again := by
  obtain ⟨es, h1, h2⟩ := teamText_reads
  have hn : Names ⟨py!"activity", [py!"Activity"]⟩ (fun _ => py!"pay") teamLog.traces := by
    simp only [Names, teamLog, List.mem_cons, List.not_mem_nil, or_false, forall_eq_or_imp, forall_eq]
    exact ⟨rfl, rfl⟩
  have h : ((clusterLogs id ⟨py!"activity", [py!"Activity"]⟩ 2 (fun _ _ => 1) teamLog).toOption.map (List.map fun l => l.traces.length)) = some [0, 2] := by
    decide +kernel
  cases e : clusterLogs id ⟨py!"activity", [py!"Activity"]⟩ 2 (fun _ _ => 1) teamLog with
  | error x => rw [e] at h; cases h
  | ok ls =>
    rw [e] at h
    exact ⟨ls, rfl, by simpa [Except.toOption] using h,
      (c152_cluster toyFloatText (standard_sound .ok) false h1 h2 (teamDoc_says _) (.inr teamDoc_line) hn e).2⟩

end Opy
