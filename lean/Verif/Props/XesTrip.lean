import Verif.Props.XesRead
import Verif.Props.Tokens
import Verif.Props.DateTime
import Verif.Props.Xid
/-
Properties C38 to C41 (and the second half of C46): saving a log as XES and loading it again.
-/
set_option linter.unusedSectionVars false

namespace Opy

/-! ## Specification -/

/-- What is known about writing an attribute value to an XML file and reading it back: there are
characters (among them the printable ASCII characters) that survive, and whatever comes back consists
of such characters.  (Depending on the Python version tabs and line ends come back as blanks.) -/
structure Channel (ws : Str → Str) where
  safe : Char → Prop
  out : ∀ s, ∀ c ∈ ws s, safe c
  fix : ∀ s, (∀ c ∈ s, safe c) → ws s = s
  plain : ∀ c : Char, 32 ≤ c.toNat → c.toNat ≤ 126 → safe c

section
variable {F : Type} [PyFloat F]

/-- `str(float)` uses printable ASCII characters only. -/
def FloatText (F : Type) [PyFloat F] : Prop := ∀ (x : F), ∀ c ∈ PyFloat.repr x, 32 ≤ c.toNat ∧ c.toNat ≤ 126

/-- The value has the type the class of the attribute asks for; timestamps exist and have an offset of
whole minutes, if any. -/
def GoodVal : Kind → PyVal F → Prop
  | .literal, .str _ => True
  | .discrete, .int _ => True
  | .continuous, .float _ => True
  | .boolean, .bool _ => True
  | .id, .xid _ => True
  | .timestamp, .dt d => GoodDateTime d
  | .list, .none => True
  | .container, .none => True
  | _, _ => False

mutual
/-- Everything of the attribute that is written has a value of the right type. -/
def Typed : Attr F → Prop
  | .mk k _ _ v m c => GoodVal k v ∧ (if k.isCollection = true then TypedList c else TypedMap m)
/-- The same for a list. -/
def TypedList : List (Attr F) → Prop
  | [] => True
  | a :: as => Typed a ∧ TypedList as
/-- The same for a map. -/
def TypedMap : List (Str × Attr F) → Prop
  | [] => True
  | (_, a) :: as => Typed a ∧ TypedMap as
end

/-- The same for a log. -/
structure WritableLog (L : Log F) : Prop where
  attrs : TypedMap L.attrs
  globalTrace : TypedList L.globalTrace
  globalEvent : TypedList L.globalEvent
  traces : ∀ t ∈ L.traces, TypedMap t.attrs ∧ ∀ e ∈ t.events, TypedMap e.attrs

/-- The extension that belongs to a key: the one registered for the part before the first colon. -/
def extFor (mgr : ExtMgr) (key : Str) : Option Ext :=
  if ':' ∈ key then mgr.byPrefix (key.takeWhile (· ≠ ':')) else none

/-- What happens to a value: text goes through the file, timestamps are cut to milliseconds and made
aware. -/
def normVal (ws : Str → Str) : PyVal F → PyVal F
  | .str s => .str (ws s)
  | .dt d => .dt (toMillisAware d)
  | v => v

/-- Attributes keyed by their own keys; a later one takes the place of an earlier one. -/
def rekey (cs : List (Attr F)) : List (Str × Attr F) := cs.foldl (fun m c => dset c.key c m) []

mutual
/-- What happens to an attribute.  The nested attributes of a collection become its members. -/
def normAttr (mgr : ExtMgr) (ws : Str → Str) : Attr F → Attr F
  | .mk k key _ v m c =>
    if k.isCollection = true then
      .mk k (ws key) (extFor mgr (ws key)) (normVal ws v) (rekey (normList mgr ws c)) (normList mgr ws c)
    else .mk k (ws key) (extFor mgr (ws key)) (normVal ws v) (rekey (normVals mgr ws m)) []
/-- ... to a list of attributes. -/
def normList (mgr : ExtMgr) (ws : Str → Str) : List (Attr F) → List (Attr F)
  | [] => []
  | a :: as => normAttr mgr ws a :: normList mgr ws as
/-- ... to the values of a map. -/
def normVals (mgr : ExtMgr) (ws : Str → Str) : List (Str × Attr F) → List (Attr F)
  | [] => []
  | (_, a) :: as => normAttr mgr ws a :: normVals mgr ws as
end

mutual
/-- What happens to a global attribute: its nested attributes (or members) come first, each on its own
and flattened in the same way; the attribute itself comes without them. -/
def flatAttr (mgr : ExtMgr) (ws : Str → Str) : Attr F → List (Attr F)
  | .mk k key _ v m c =>
    (if k.isCollection = true then flatList mgr ws c else flatVals mgr ws m) ++
      [.mk k (ws key) (extFor mgr (ws key)) (normVal ws v) [] []]
/-- ... to a list of global attributes. -/
def flatList (mgr : ExtMgr) (ws : Str → Str) : List (Attr F) → List (Attr F)
  | [] => []
  | a :: as => flatAttr mgr ws a ++ flatList mgr ws as
/-- ... to the values of a map. -/
def flatVals (mgr : ExtMgr) (ws : Str → Str) : List (Str × Attr F) → List (Attr F)
  | [] => []
  | (_, a) :: as => flatAttr mgr ws a ++ flatVals mgr ws as
end

/-- What happens to a classifier: its keys go through the token encoding (see C01 for what that does);
without a name or keys it is lost. -/
def normClassifier (ws : Str → Str) (c : Classifier) : Option Classifier :=
  if ws c.name ≠ [] ∧ ws (formatToken c.keys) ≠ [] then some ⟨ws c.name, extractTokens (ws (formatToken c.keys))⟩ else none

/-- Extensions of which no earlier one has the same URI. -/
def distinctExts : List Ext → List Ext
  | [] => []
  | e :: es => e :: (distinctExts es).filter fun f => f.uri ≠ e.uri

/-- The entries the serializer always writes. -/
def xesVersion : List (Str × Str) :=
  [(py!"xes.version", py!"1.0"), (py!"xes.features", py!"nested-attributes"), (py!"openxes.version", py!"1.0RC7")]

/-- The content of a log. -/
def Log.content (L : Log F) : Content F :=
  ⟨L.attrs, L.extensions, L.classifiers, L.globalTrace, L.globalEvent, L.features,
    L.traces.map fun t => (t.attrs, t.events.map Event.attrs)⟩

/-- What saving and loading makes of the content of a log. -/
def norm (mgr : ExtMgr) (ws : Str → Str) (c : Content F) : Content F :=
  ⟨rekey (normVals mgr ws c.attrs), distinctExts (c.extensions.filterMap fun e => mgr.byPrefix (ws e.pfx)),
    c.classifiers.filterMap (normClassifier ws), flatList mgr ws c.globalTrace, flatList mgr ws c.globalEvent, xesVersion,
    c.traces.map fun t => (rekey (normVals mgr ws t.1), t.2.map fun m => rekey (normVals mgr ws m))⟩

/-! ## The loaded content is determined by the heap -/

mutual
theorem Den.unique {h : Heap F} {a b a' b' : Nat} : ∀ {x y : Attr F} {r : Ref}, Den h a b x r → Den h a' b' y r → x = y
  | .mk k key e v m c, .mk k' key' e' v' m' c', r, h1, h2 => by
    simp only [Den] at h1 h2
    obtain ⟨mr, d, cr, _, g1, g2, g3, g4⟩ := h1
    obtain ⟨mr', d', cr', _, g1', g2', g3', g4'⟩ := h2
    rw [g1] at g1'
    simp only [Option.some.injEq, Obj.attr.injEq] at g1'
    obtain ⟨rfl, rfl, rfl, rfl, rfl, rfl⟩ := g1'
    rw [g2] at g2'
    simp only [Option.some.injEq, Obj.map.injEq] at g2'
    subst g2'
    rw [DenMap.unique g3 g3', DenList.unique g4 g4']
theorem DenMap.unique {h : Heap F} {a b a' b' : Nat} : ∀ {x y : List (Str × Attr F)} {d : List (Str × Ref)},
    DenMap h a b x d → DenMap h a' b' y d → x = y
  | [], [], d, _, _ => rfl
  | [], (k, y) :: ys, d, h1, h2 => by
    simp only [DenMap] at h1 h2
    obtain ⟨r, d', e, _⟩ := h2
    subst h1; simp at e
  | (k, y) :: ys, [], d, h2, h1 => by
    simp only [DenMap] at h1 h2
    obtain ⟨r, d', e, _⟩ := h2
    subst h1; simp at e
  | (k, x) :: xs, (k', y) :: ys, d, h1, h2 => by
    simp only [DenMap] at h1 h2
    obtain ⟨r, d', rfl, h3, h4⟩ := h1
    obtain ⟨r', d'', e, h5, h6⟩ := h2
    simp only [List.cons.injEq, Prod.mk.injEq] at e
    obtain ⟨⟨rfl, rfl⟩, rfl⟩ := e
    rw [Den.unique h3 h5, DenMap.unique h4 h6]
theorem DenList.unique {h : Heap F} {a b a' b' : Nat} : ∀ {x y : List (Attr F)} {d : List Ref},
    DenList h a b x d → DenList h a' b' y d → x = y
  | [], [], d, _, _ => rfl
  | [], y :: ys, d, h1, h2 => by
    simp only [DenList] at h1 h2
    obtain ⟨r, d', e, _⟩ := h2
    subst h1; simp at e
  | y :: ys, [], d, h2, h1 => by
    simp only [DenList] at h1 h2
    obtain ⟨r, d', e, _⟩ := h2
    subst h1; simp at e
  | x :: xs, y :: ys, d, h1, h2 => by
    simp only [DenList] at h1 h2
    obtain ⟨r, d', rfl, h3, h4⟩ := h1
    obtain ⟨r', d'', e, h5, h6⟩ := h2
    simp only [List.cons.injEq] at e
    obtain ⟨rfl, rfl⟩ := e
    rw [Den.unique h3 h5, DenList.unique h4 h6]
end

theorem DenAll.unique {α : Type} {P Q : α → Ref → Prop} (hu : ∀ x y r, P x r → Q y r → x = y) :
    ∀ {xs ys : List α} {d : List Ref}, DenAll P xs d → DenAll Q ys d → xs = ys
  | [], [], d, _, _ => rfl
  | [], y :: ys, d, h1, h2 => by
    obtain ⟨r, d', e, _⟩ := h2
    simp only [DenAll] at h1
    subst h1; simp at e
  | y :: ys, [], d, h2, h1 => by
    obtain ⟨r, d', e, _⟩ := h2
    simp only [DenAll] at h1
    subst h1; simp at e
  | x :: xs, y :: ys, d, h1, h2 => by
    obtain ⟨r, d', rfl, h3, h4⟩ := h1
    obtain ⟨r', d'', e, h5, h6⟩ := h2
    simp only [List.cons.injEq] at e
    obtain ⟨rfl, rfl⟩ := e
    rw [hu _ _ _ h3 h5, DenAll.unique hu h4 h6]

/-- A log object has one content only, so saying that the loaded log has a certain content says
everything about it (except the identifiers of events). -/
theorem DenLog.unique {h : Heap F} {a b a' b' : Nat} {x y : Content F} {l : Ref} (h1 : DenLog h a b x l)
    (h2 : DenLog h a' b' y l) : x = y := by
  obtain ⟨mr, d, gt, ge, ts, _, g1, g2, g3, g4, g5, g6⟩ := h1
  obtain ⟨mr', d', gt', ge', ts', _, k1, k2, k3, k4, k5, k6⟩ := h2
  rw [g1] at k1
  simp only [Option.some.injEq, Obj.log.injEq, LogObj.mk.injEq] at k1
  obtain ⟨rfl, e1, e2, rfl, rfl, e3, rfl⟩ := k1
  rw [g2] at k2
  simp only [Option.some.injEq, Obj.map.injEq] at k2
  subst k2
  have hev : ∀ (x y : List (Str × Attr F)) (r : Ref), DenEvent h a b x r → DenEvent h a' b' y r → x = y := by
    rintro x y r ⟨u, m, d, _, q1, q2, q3⟩ ⟨u', m', d', _, p1, p2, p3⟩
    rw [q1] at p1
    simp only [Option.some.injEq, Obj.event.injEq] at p1
    obtain ⟨rfl, rfl⟩ := p1
    rw [q2] at p2
    simp only [Option.some.injEq, Obj.map.injEq] at p2
    subst p2
    exact q3.unique p3
  have htr : ∀ (x y : List (Str × Attr F) × List (List (Str × Attr F))) (r : Ref), DenTrace h a b x r →
      DenTrace h a' b' y r → x = y := by
    rintro ⟨x1, x2⟩ ⟨y1, y2⟩ r ⟨m, d, es, _, q1, q2, q3, q4⟩ ⟨m', d', es', _, p1, p2, p3, p4⟩
    rw [q1] at p1
    simp only [Option.some.injEq, Obj.trace.injEq] at p1
    obtain ⟨rfl, rfl⟩ := p1
    rw [q2] at p2
    simp only [Option.some.injEq, Obj.map.injEq] at p2
    subst p2
    rw [show x1 = y1 from q3.unique p3, show x2 = y2 from q4.unique hev p4]
  obtain ⟨xa, xe, xc, xt, xv, xf, xr⟩ := x
  obtain ⟨ya, ye, yc, yt, yv, yf, yr⟩ := y
  simp only at e1 e2 e3 g3 g4 g5 g6 k3 k4 k5 k6
  rw [e1, e2, e3, g3.unique k3, g4.unique k4, g5.unique k5, g6.unique htr k6]

/-! ## Texts -/

theorem Channel.fixPlain {ws : Str → Str} (hc : Channel ws) {s : Str} (h : ∀ c ∈ s, 32 ≤ c.toNat ∧ c.toNat ≤ 126) : ws s = s :=
  hc.fix s fun c hm => hc.plain c (h c hm).1 (h c hm).2

theorem Channel.idem {ws : Str → Str} (hc : Channel ws) (s : Str) : ws (ws s) = ws s := hc.fix _ (hc.out s)

theorem plain_digits {ds : List Nat} (h : ∀ d ∈ ds, d < 16) : ∀ c ∈ ds.map digitChar, 32 ≤ c.toNat ∧ c.toNat ≤ 126 := by
  intro c hc
  obtain ⟨d, hd, rfl⟩ := List.mem_map.1 hc
  have : ∀ d : Fin 16, 32 ≤ (digitChar d.val).toNat ∧ (digitChar d.val).toNat ≤ 126 := by decide
  exact this ⟨d, h d hd⟩

theorem plain_natStr (n : Nat) : ∀ c ∈ natStr n, 32 ≤ c.toNat ∧ c.toNat ≤ 126 := by
  obtain ⟨ds, _, h2, h3, _⟩ := natStr_digits n
  rw [h3]
  exact plain_digits fun d hd => by have := h2 d hd; omega

theorem plain_intStr (z : Int) : ∀ c ∈ intStr z, 32 ≤ c.toNat ∧ c.toNat ≤ 126 := by
  cases z with
  | ofNat n => exact plain_natStr n
  | negSucc n =>
    intro c hc
    simp only [intStr, List.mem_cons] at hc
    rcases hc with rfl | hc
    · decide
    · exact plain_natStr _ c hc

theorem plain_padNat (w n : Nat) : ∀ c ∈ padNat w n, 32 ≤ c.toNat ∧ c.toNat ≤ 126 := by
  intro c hc
  simp only [padNat, List.mem_append, List.mem_replicate] at hc
  rcases hc with ⟨_, rfl⟩ | hc
  · decide
  · exact plain_natStr _ c hc

theorem plain_xidStr (u : Uuid) : ∀ c ∈ xidStr u, 32 ≤ c.toNat ∧ c.toNat ≤ 126 := by
  intro c hc
  rcases mem_xidStr hc with rfl | ⟨d, hd, rfl⟩
  · decide
  · have : ∀ d : Fin 16, 32 ≤ (upDigit d.val).toNat ∧ (upDigit d.val).toNat ≤ 126 := by decide
    exact this ⟨d, hd⟩

theorem plain_xesStr {d : DateTime} (g : GoodDateTime d) : ∀ c ∈ d.xesStr, 32 ≤ c.toNat ∧ c.toNat ≤ 126 := by
  intro c hc
  simp only [DateTime.xesStr, List.mem_append, List.mem_cons, List.not_mem_nil, or_false] at hc
  have hz : c ∈ zoneText d.tz → 32 ≤ c.toNat ∧ c.toNat ≤ 126 := by
    intro hc
    cases htz : d.tz with
    | none =>
      rw [htz] at hc
      simp only [zoneText, List.mem_cons, List.not_mem_nil, or_false] at hc
      subst hc; decide
    | some o =>
      rw [htz] at hc
      by_cases h0 : o = 0
      · subst h0
        have : zoneText (some 0) = [] := by decide
        rw [this] at hc
        simp at hc
      · obtain ⟨h1, h2, h3⟩ := g.offset o htz
        rw [zoneText_some h0 h3 ⟨h1, h2⟩] at hc
        simp only [List.mem_cons, List.mem_append] at hc
        rcases hc with rfl | hc | rfl | hc
        · split <;> decide
        · exact plain_padNat _ _ _ hc
        · decide
        · exact plain_padNat _ _ _ hc
  repeat' rcases hc with hc | hc
  all_goals first
    | exact plain_padNat _ _ _ hc
    | exact hz hc
    | (subst hc; decide)
    | decide

/-! ## One attribute -/

theorem split_first {α : Type} [DecidableEq α] {c : α} : ∀ {s : List α}, c ∈ s → ∃ a b, s = a ++ c :: b ∧ c ∉ a
  | x :: xs, h => by
    by_cases hx : c = x
    · exact ⟨[], xs, by simp [hx], by simp⟩
    · have : c ∈ xs := by simpa [hx] using h
      obtain ⟨a, b, e, ha⟩ := split_first this
      exact ⟨x :: a, b, by simp [e], by simp [hx, ha]⟩

theorem extOfKey_eq (mgr : ExtMgr) (key : Str) : extOfKey mgr key = extFor mgr key := by
  unfold extOfKey extFor
  cases h : breakAt ':' key with
  | none =>
    rw [if_neg]
    intro hm
    obtain ⟨a, b, rfl, ha⟩ := split_first hm
    rw [breakAt_append ha] at h
    simp at h
  | some p =>
    obtain ⟨a, b⟩ := p
    obtain ⟨h1, h2, t, h3⟩ := breakAt_some h
    subst h3
    have hm : ':' ∈ key := by rw [h1]; simp
    simp only [hm, if_true]
    have : key.takeWhile (fun c => decide (c ≠ ':')) = a := by
      rw [h1, List.takeWhile_append_of_pos]
      · simp
      · intro c hc
        simp only [ne_eq, decide_not, Bool.not_eq_eq_eq_not, Bool.not_true, decide_eq_false_iff_not]
        rintro rfl
        exact h2 hc
    simp only [ne_eq, decide_not] at this ⊢
    rw [this]

theorem lower_tag (k : Kind) : lower k.tag = k.tag ∧ k.tag ∈ attrTags ∧ lower k.tag ≠ py!"event" ∧ lower k.tag ≠ py!"trace" ∧
    lower k.tag ≠ py!"extension" ∧ lower k.tag ≠ py!"classifier" ∧ lower k.tag ≠ py!"global" := by
  cases k <;> decide

theorem rekey_eq (cs : List (Attr F)) : intoMap [] cs = rekey cs := rfl

/-- The text of a value reads back as the normalised value. -/
theorem val_back {ws : Str → Str} (hc : Channel ws) (hf : FloatText F) {k : Kind} {v : PyVal F} (hv : GoodVal k v) (key : Str)
    (e : Option Ext) (m : List (Str × Attr F)) (c : List (Attr F)) (hk : k.isCollection = false) :
    ∃ s, attrStr (.mk k key e v m c) = .ok s ∧ readVal (F := F) k.tag (ws s) = .ok (some (k, normVal ws v)) := by
  cases k <;> cases v <;> simp only [GoodVal] at hv <;> simp only [Kind.isCollection, Bool.true_eq_false] at hk
  case literal.str s => exact ⟨s, by simp only [attrStr, pyStr], by simp [readVal, Kind.tag, normVal]⟩
  case discrete.int z =>
    exact ⟨intStr z, by simp only [attrStr, pyStr],
      by simp [readVal, Kind.tag, normVal, hc.fixPlain (plain_intStr z), pyInt_intStr]⟩
  case continuous.float x =>
    exact ⟨PyFloat.repr x, by simp only [attrStr, pyStr],
      by simp [readVal, Kind.tag, normVal, hc.fixPlain (hf x), PyFloat.parse_repr]⟩
  case boolean.bool b =>
    refine ⟨pyLower (pyStr (F := F) (.bool b)), by simp only [attrStr], ?_⟩
    have ht : pyLower (pyStr (F := F) (.bool b)) = if b then py!"true" else py!"false" := by
      cases b <;> simp only [pyStr] <;> decide
    rw [ht]
    have : ws (if b then py!"true" else py!"false") = if b then py!"true" else py!"false" := hc.fixPlain (by
      cases b <;> decide)
    rw [this]
    have hl : decide (lower (if b then py!"true" else py!"false") = py!"true") = b := by cases b <;> decide
    simp [readVal, Kind.tag, normVal, hl]
  case id.xid u =>
    exact ⟨xidStr u, by simp only [attrStr, pyStr],
      by simp [readVal, Kind.tag, normVal, hc.fixPlain (plain_xidStr u), c07_roundtrip]⟩
  case timestamp.dt d =>
    exact ⟨d.xesStr, by simp only [attrStr],
      by simp [readVal, Kind.tag, normVal, hc.fixPlain (plain_xesStr hv), c04_roundtrip hv]⟩

mutual
theorem attr_back (mgr : ExtMgr) {ws : Str → Str} (hc : Channel ws) (hf : FloatText F) : ∀ (a : Attr F), Typed a →
    ∃ t as ks, attrXml a = .ok (.elem t as ks) ∧ t = a.kind.tag ∧
      readAttr mgr ((Xml.elem t as ks).through ws) = .ok (normAttr mgr ws a) ∧
      readGlob mgr ((Xml.elem t as ks).through ws) = .ok (flatAttr mgr ws a)
  | .mk k key e v m c, ht => by
    simp only [Typed] at ht
    obtain ⟨hv, hk⟩ := ht
    obtain ⟨l1, l2, _⟩ := lower_tag k
    cases hcol : k.isCollection with
    | true =>
      simp only [hcol, if_true] at hk
      obtain ⟨xs, h1, h2, h3⟩ := attrs_back mgr hc hf c hk
      refine ⟨k.tag, [(py!"key", key)], xs, ?_, rfl, ?_, ?_⟩
      · simp only [attrXml, hcol, if_true, h1, bind, Except.bind]
      all_goals
        have hkey : elemKey (List.map (fun p => (p.1, ws p.2)) [(py!"key", key)]) = ws key := rfl
        have hval : elemValue (List.map (fun p => (p.1, ws p.2)) [(py!"key", key)]) = [] := rfl
        have hr : readVal (F := F) k.tag [] = .ok (some (k, normVal ws v)) := by
          cases k <;> simp only [Kind.isCollection, Bool.false_eq_true] at hcol <;> cases v <;>
            simp only [GoodVal] at hv <;> simp [readVal, Kind.tag, normVal]
      · simp only [Xml.through, readAttr, l1, l2, if_true, hkey, hval, hr, h2, normAttr, hcol, extOfKey_eq, rekey_eq]
      · simp only [Xml.through, readGlob, l1, l2, if_true, hkey, hval, hr, h3, flatAttr, hcol, extOfKey_eq]
    | false =>
      simp only [hcol, Bool.false_eq_true, if_false] at hk
      obtain ⟨xs, h1, h2, h3⟩ := map_back mgr hc hf m hk
      obtain ⟨s, h4, h5⟩ := val_back hc hf hv key e m c hcol
      refine ⟨k.tag, [(py!"key", key), (py!"value", s)], xs, ?_, rfl, ?_, ?_⟩
      · simp only [attrXml, hcol, Bool.false_eq_true, if_false, h1, h4, bind, Except.bind]
      all_goals
        have hkey : elemKey (List.map (fun p => (p.1, ws p.2)) [(py!"key", key), (py!"value", s)]) = ws key := rfl
        have hval : elemValue (List.map (fun p => (p.1, ws p.2)) [(py!"key", key), (py!"value", s)]) = ws s := rfl
      · simp only [Xml.through, readAttr, l1, l2, if_true, hkey, hval, h5, h2, normAttr, hcol, extOfKey_eq, rekey_eq,
          Bool.false_eq_true, if_false]
      · simp only [Xml.through, readGlob, l1, l2, if_true, hkey, hval, h5, h3, flatAttr, hcol, extOfKey_eq,
          Bool.false_eq_true, if_false]
theorem attrs_back (mgr : ExtMgr) {ws : Str → Str} (hc : Channel ws) (hf : FloatText F) : ∀ (as : List (Attr F)), TypedList as →
    ∃ xs, attrsXml as = .ok xs ∧ readAttrs mgr (throughList ws xs) = .ok (normList mgr ws as) ∧
      readGlobs mgr (throughList ws xs) = .ok (flatList mgr ws as)
  | [], _ => ⟨[], by simp only [attrsXml], by simp only [throughList, readAttrs, normList],
      by simp only [throughList, readGlobs, flatList]⟩
  | a :: as, ht => by
    simp only [TypedList] at ht
    obtain ⟨t, as', ks, h1, _, h2, h3⟩ := attr_back mgr hc hf a ht.1
    obtain ⟨xs, g1, g2, g3⟩ := attrs_back mgr hc hf as ht.2
    refine ⟨.elem t as' ks :: xs, ?_, ?_, ?_⟩
    · simp only [attrsXml, h1, g1, bind, Except.bind]
    · simp only [throughList, readAttrs, h2, g2, normList]
    · simp only [throughList, readGlobs, h3, g3, flatList]
theorem map_back (mgr : ExtMgr) {ws : Str → Str} (hc : Channel ws) (hf : FloatText F) : ∀ (as : List (Str × Attr F)),
    TypedMap as → ∃ xs, mapXml as = .ok xs ∧ readAttrs mgr (throughList ws xs) = .ok (normVals mgr ws as) ∧
      readGlobs mgr (throughList ws xs) = .ok (flatVals mgr ws as)
  | [], _ => ⟨[], by simp only [mapXml], by simp only [throughList, readAttrs, normVals],
      by simp only [throughList, readGlobs, flatVals]⟩
  | (k, a) :: as, ht => by
    simp only [TypedMap] at ht
    obtain ⟨t, as', ks, h1, _, h2, h3⟩ := attr_back mgr hc hf a ht.1
    obtain ⟨xs, g1, g2, g3⟩ := map_back mgr hc hf as ht.2
    refine ⟨.elem t as' ks :: xs, ?_, ?_, ?_⟩
    · simp only [mapXml, h1, g1, bind, Except.bind]
    · simp only [throughList, readAttrs, h2, g2, normVals]
    · simp only [throughList, readGlobs, h3, g3, flatVals]
end

/-! ## The other elements -/

theorem throughList_append (ws : Str → Str) : ∀ xs ys : List Xml, throughList ws (xs ++ ys) = throughList ws xs ++ throughList ws ys
  | [], ys => rfl
  | x :: xs, ys => by simp only [List.cons_append, throughList, throughList_append ws xs ys]

theorem trace_attrs (mgr : ExtMgr) {ws : Str → Str} (hc : Channel ws) (hf : FloatText F) : ∀ (as : List (Str × Attr F)),
    TypedMap as → ∃ xs, mapXml as = .ok xs ∧ ∀ rest c, readTrace mgr (throughList ws xs ++ rest) c =
      readTrace mgr rest (intoMap c.1 (normVals mgr ws as), c.2)
  | [], _ => ⟨[], by simp only [mapXml], fun rest c => by simp [throughList, normVals, intoMap]⟩
  | (k, a) :: as, ht => by
    simp only [TypedMap] at ht
    obtain ⟨t, as', ks, h1, h0, h2, _⟩ := attr_back mgr hc hf a ht.1
    obtain ⟨xs, g1, g2⟩ := trace_attrs mgr hc hf as ht.2
    refine ⟨.elem t as' ks :: xs, by simp only [mapXml, h1, g1, bind, Except.bind], fun rest c => ?_⟩
    have hne : lower t ≠ py!"event" := by rw [h0]; exact (lower_tag _).2.2.1
    simp only [Xml.through] at h2
    simp only [throughList, Xml.through, List.cons_append, readTrace, hne, if_false, h2, bind, Except.bind, g2, normVals, intoMap,
      List.foldl_cons]

theorem log_attrs (mgr : ExtMgr) {ws : Str → Str} (hc : Channel ws) (hf : FloatText F) : ∀ (as : List (Str × Attr F)),
    TypedMap as → ∃ xs, mapXml as = .ok xs ∧ ∀ rest c, readLog mgr (throughList ws xs ++ rest) c =
      readLog mgr rest { c with attrs := intoMap c.attrs (normVals mgr ws as) }
  | [], _ => ⟨[], by simp only [mapXml], fun rest c => by simp [throughList, normVals, intoMap]⟩
  | (k, a) :: as, ht => by
    simp only [TypedMap] at ht
    obtain ⟨t, as', ks, h1, h0, h2, _⟩ := attr_back mgr hc hf a ht.1
    obtain ⟨xs, g1, g2⟩ := log_attrs mgr hc hf as ht.2
    refine ⟨.elem t as' ks :: xs, by simp only [mapXml, h1, g1, bind, Except.bind], fun rest c => ?_⟩
    obtain ⟨_, _, _, n1, n2, n3, n4⟩ := lower_tag a.kind
    rw [← h0] at n1 n2 n3 n4
    simp only [Xml.through] at h2
    simp only [throughList, Xml.through, List.cons_append, readLog, n1, n2, n3, n4, if_false, h2, bind, Except.bind, g2, normVals,
      intoMap, List.foldl_cons]

theorem events_back (mgr : ExtMgr) {ws : Str → Str} (hc : Channel ws) (hf : FloatText F) : ∀ (es : List (Event F)),
    (∀ e ∈ es, TypedMap e.attrs) → ∃ xs, eventsXml es = .ok xs ∧ ∀ c, readTrace mgr (throughList ws xs) c =
      .ok (c.1, c.2 ++ es.map fun e => rekey (normVals mgr ws e.attrs))
  | [], _ => ⟨[], by simp only [eventsXml], fun c => by simp [throughList, readTrace]⟩
  | e :: es, ht => by
    obtain ⟨ks, h1, h2, _⟩ := map_back mgr hc hf e.attrs (ht e (by simp))
    obtain ⟨xs, g1, g2⟩ := events_back mgr hc hf es fun e he => ht e (by simp [he])
    refine ⟨.elem py!"event" [] ks :: xs, by simp only [eventsXml, h1, g1, bind, Except.bind], fun c => ?_⟩
    have hl : lower py!"event" = py!"event" := by decide
    simp only [throughList, Xml.through, readTrace, hl, if_true, h2, bind, Except.bind, g2, rekey_eq, List.map_cons,
      List.append_assoc, List.singleton_append]

theorem traces_back (mgr : ExtMgr) {ws : Str → Str} (hc : Channel ws) (hf : FloatText F) : ∀ (ts : List (Trace F)),
    (∀ t ∈ ts, TypedMap t.attrs ∧ ∀ e ∈ t.events, TypedMap e.attrs) → ∃ xs, tracesXml ts = .ok xs ∧
      ∀ c, readLog mgr (throughList ws xs) c = .ok { c with traces := c.traces ++ ts.map fun t =>
        (rekey (normVals mgr ws t.attrs), t.events.map fun e => rekey (normVals mgr ws e.attrs)) }
  | [], _ => ⟨[], by simp only [tracesXml], fun c => by simp [throughList, readLog]⟩
  | t :: ts, ht => by
    obtain ⟨ks, h1, h2⟩ := trace_attrs mgr hc hf t.attrs (ht t (by simp)).1
    obtain ⟨es, k1, k2⟩ := events_back mgr hc hf t.events (ht t (by simp)).2
    obtain ⟨xs, g1, g2⟩ := traces_back mgr hc hf ts fun t h => ht t (by simp [h])
    refine ⟨.elem py!"trace" [] (ks ++ es) :: xs, by simp only [tracesXml, h1, k1, g1, bind, Except.bind], fun c => ?_⟩
    have hl : lower py!"trace" = py!"trace" := by decide
    simp only [throughList, Xml.through, throughList_append, readLog, hl, if_true, h2, k2, bind, Except.bind, g2, rekey_eq,
      List.map_cons, List.append_assoc, List.singleton_append, List.nil_append]

theorem exts_back (mgr : ExtMgr) (ws : Str → Str) : ∀ (es : List Ext) (rest : List Xml) (c : Content F),
    readLog mgr (throughList ws (es.map extXml) ++ rest) c =
      readLog mgr rest { c with
        extensions := (es.filterMap fun e => mgr.byPrefix (ws e.pfx)).foldl (fun l e => extAdd e l) c.extensions }
  | [], rest, c => by simp [throughList]
  | e :: es, rest, c => by
    have hl : lower py!"extension" = py!"extension" := by decide
    have h1 : py!"extension" ≠ py!"trace" := by decide
    have hr : readExt mgr (List.map (fun p => (p.1, ws p.2)) [(py!"name", e.name), (py!"prefix", e.pfx), (py!"uri", e.uri)]) =
        .ok (mgr.byPrefix (ws e.pfx)) := rfl
    simp only [List.map_cons, throughList, extXml, Xml.through, List.cons_append, readLog, hl, h1, if_true, if_false, bind,
      Except.bind]
    simp only [List.map_cons] at hr
    rw [hr]
    cases hb : mgr.byPrefix (ws e.pfx) with
    | none => simpa [hb, extXml] using exts_back mgr ws es rest c
    | some x => simpa [hb, extXml] using exts_back mgr ws es rest _

theorem foldl_extAdd : ∀ (es acc : List Ext), es.foldl (fun l e => extAdd e l) acc =
    acc ++ (distinctExts es).filter fun f => f.uri ∉ acc.map Ext.uri
  | [], acc => by simp [distinctExts]
  | e :: es, acc => by
    rw [List.foldl_cons, foldl_extAdd es, distinctExts]
    unfold extAdd
    by_cases he : e.uri ∈ acc.map Ext.uri
    · simp only [he, if_true, List.filter_cons, not_true, decide_false, Bool.false_eq_true, if_false, List.filter_filter]
      congr 1
      apply List.filter_congr
      intro f _
      by_cases hf : f.uri = e.uri
      · simp [hf, he]
      · simp [hf]
    · simp only [he, if_false, List.filter_cons, not_false_eq_true, decide_true, if_true, List.filter_filter, List.append_assoc,
        List.singleton_append]
      congr 2
      apply List.filter_congr
      intro f _
      by_cases hf : f.uri = e.uri <;> simp [hf]

theorem classifiers_back (mgr : ExtMgr) (ws : Str → Str) : ∀ (ks : List Classifier) (rest : List Xml) (c : Content F),
    readLog mgr (throughList ws (ks.map classifierXml) ++ rest) c =
      readLog mgr rest { c with classifiers := c.classifiers ++ ks.filterMap (normClassifier ws) }
  | [], rest, c => by simp [throughList]
  | k :: ks, rest, c => by
    have hl : lower py!"classifier" = py!"classifier" := by decide
    have h1 : py!"classifier" ≠ py!"trace" := by decide
    have h2 : py!"classifier" ≠ py!"extension" := by decide
    have hr : readClassifier (List.map (fun p => (p.1, ws p.2)) [(py!"name", k.name), (py!"keys", formatToken k.keys)]) =
        normClassifier ws k := by
      unfold normClassifier
      simp only [ne_eq, ← List.length_pos_iff]
      rfl
    simp only [List.map_cons, throughList, classifierXml, Xml.through, List.cons_append, readLog, hl, h1, h2, if_true, if_false]
    simp only [List.map_cons] at hr
    rw [hr]
    cases hb : normClassifier ws k with
    | none => simpa [hb, classifierXml] using classifiers_back mgr ws ks rest c
    | some x =>
      simpa [hb, classifierXml] using classifiers_back mgr ws ks rest { c with classifiers := c.classifiers ++ [x] }

theorem globals_back (mgr : ExtMgr) {ws : Str → Str} (hc : Channel ws) (hf : FloatText F) (as : List (Attr F)) (ht : TypedList as) :
    (∃ xs, globalXml py!"trace" as = .ok xs ∧ ∀ rest c, readLog mgr (throughList ws xs ++ rest) c =
      readLog mgr rest { c with globalTrace := c.globalTrace ++ flatList mgr ws as }) ∧
    (∃ xs, globalXml py!"event" as = .ok xs ∧ ∀ rest c, readLog mgr (throughList ws xs ++ rest) c =
      readLog mgr rest { c with globalEvent := c.globalEvent ++ flatList mgr ws as }) := by
  cases as with
  | nil =>
    exact ⟨⟨[], rfl, fun rest c => by simp [throughList, flatList]⟩, ⟨[], rfl, fun rest c => by simp [throughList, flatList]⟩⟩
  | cons a as =>
    obtain ⟨xs, h1, _, h3⟩ := attrs_back mgr hc hf (a :: as) ht
    have hl : lower py!"global" = py!"global" := by decide
    have n1 : py!"global" ≠ py!"trace" := by decide
    have n2 : py!"global" ≠ py!"extension" := by decide
    have n3 : py!"global" ≠ py!"classifier" := by decide
    have n4 : py!"event" ≠ py!"trace" := by decide
    have w1 : ws py!"trace" = py!"trace" := hc.fixPlain (by decide)
    have w2 : ws py!"event" = py!"event" := hc.fixPlain (by decide)
    have l1 : lower py!"trace" = py!"trace" := by decide
    have l2 : lower py!"event" = py!"event" := by decide
    have hd : ∀ v : Str, dget py!"scope" [(py!"scope", v)] = some v := fun v => by simp [dget]
    refine ⟨⟨[.elem py!"global" [(py!"scope", py!"trace")] xs], ?_, fun rest c => ?_⟩,
      ⟨[.elem py!"global" [(py!"scope", py!"event")] xs], ?_, fun rest c => ?_⟩⟩
    · simp only [globalXml, List.length_cons, Nat.zero_lt_succ, gt_iff_lt, if_true, h1, bind, Except.bind]
    · simp only [throughList, Xml.through, List.map_cons, List.map_nil, List.cons_append, List.nil_append, readLog, hl, n1, n2, n3,
        if_true, if_false, hd, w1, l1, h3, bind, Except.bind]
    · simp only [globalXml, List.length_cons, Nat.zero_lt_succ, gt_iff_lt, if_true, h1, bind, Except.bind]
    · simp only [throughList, Xml.through, List.map_cons, List.map_nil, List.cons_append, List.nil_append, readLog, hl, n1, n2, n3,
        n4, if_true, if_false, hd, w2, l2, h3, bind, Except.bind]

/-- A typed log is written, and the document describes the normalised content. -/
theorem log_back (mgr : ExtMgr) {ws : Str → Str} (hc : Channel ws) (hf : FloatText F) {L : Log F} (hL : WritableLog L) :
    ∃ x, serializeXes L = .ok x ∧ readDoc mgr (x.through ws) = .ok (norm mgr ws L.content) := by
  obtain ⟨⟨gt, t1, t2⟩, _⟩ := globals_back mgr hc hf L.globalTrace hL.globalTrace
  obtain ⟨_, ⟨ge, e1, e2⟩⟩ := globals_back mgr hc hf L.globalEvent hL.globalEvent
  obtain ⟨as, a1, a2⟩ := log_attrs mgr hc hf L.attrs hL.attrs
  obtain ⟨ts, s1, s2⟩ := traces_back mgr hc hf L.traces hL.traces
  refine ⟨_, by simp only [serializeXes, t1, e1, a1, s1, bind, Except.bind]; rfl, ?_⟩
  have hl : lower py!"log" = py!"log" := by decide
  have hv : readFeatures (versionAttrs.map fun p => (p.1, ws p.2)) = xesVersion := by
    have w1 : ws py!"1.0" = py!"1.0" := hc.fixPlain (by decide)
    have w2 : ws py!"nested-attributes" = py!"nested-attributes" := hc.fixPlain (by decide)
    have w3 : ws py!"1.0RC7" = py!"1.0RC7" := hc.fixPlain (by decide)
    simp only [versionAttrs, List.map_cons, List.map_nil, w1, w2, w3]
    decide
  simp only [Xml.through, readDoc, hl, if_true, throughList_append, List.append_assoc, hv, exts_back, t2, e2, classifiers_back, a2,
    s2]
  simp only [norm, Log.content, List.nil_append, List.map_map, rekey_eq, foldl_extAdd, List.map_nil, List.not_mem_nil,
    not_false_eq_true, decide_true, List.filter_eq_self.2 (fun _ _ => rfl), Function.comp_def]

/-! ## C39 -/

/-- Saving the log and loading the file, into any heap and with any given factory, gives a fresh log of
content `c` and leaves older objects alone. -/
def SavesTo (mgr : ExtMgr) (ws : Str → Str) (L : Log F) (c : Content F) : Prop :=
  ∃ x, serializeXes L = .ok x ∧ ∀ (rnd : Nat → Uuid) (given : Option (Factory F)) (h : Heap F),
    ∃ l h', xesParse given (stdFactory F rnd) mgr h (x.through ws).sax = .ok (some l, h') ∧
      DenLog h' h.size h'.size c l ∧ Keeps h.size h h'

/-- C39: every well-typed log can be saved and loaded, and the loaded log is the normalised one. -/
theorem c39_normal_form (mgr : ExtMgr) {ws : Str → Str} (hc : Channel ws) (hf : FloatText F) {L : Log F} (hL : WritableLog L) :
    SavesTo mgr ws L (norm mgr ws L.content) := by
  obtain ⟨x, h1, h2⟩ := log_back mgr hc hf hL
  exact ⟨x, h1, fun rnd given h => doc_parse rnd mgr h2 given h⟩

/-- ... and nothing else: the loaded content is unique. -/
theorem c39_unique {mgr : ExtMgr} {ws : Str → Str} {L : Log F} {c c' : Content F} (h1 : SavesTo mgr ws L c)
    (h2 : SavesTo mgr ws L c') : c = c' := by
  obtain ⟨x, hx, h1⟩ := h1
  obtain ⟨y, hy, h2⟩ := h2
  rw [hx] at hy
  simp only [Except.ok.injEq] at hy
  subst hy
  obtain ⟨l, h', p1, d1, _⟩ := h1 (fun _ => 0) none ⟨[], 0⟩
  obtain ⟨l', h'', p2, d2, _⟩ := h2 (fun _ => 0) none ⟨[], 0⟩
  rw [p1] at p2
  simp only [Except.ok.injEq, Prod.mk.injEq, Option.some.injEq] at p2
  obtain ⟨rfl, rfl⟩ := p2
  exact d1.unique d2

/-- C46 (second half): whatever the features were, after saving and loading they are the version
entries. -/
theorem c46_after_trip (mgr : ExtMgr) {ws : Str → Str} (hc : Channel ws) (hf : FloatText F) {L : Log F} (hL : WritableLog L) :
    ∃ c, SavesTo mgr ws L c ∧ c.features = xesVersion :=
  ⟨_, c39_normal_form mgr hc hf hL, rfl⟩

/-! ## C38: canonical logs come back unchanged -/

/-- Text that survives the file; aware timestamps of millisecond precision. -/
def CanonVal (ws : Str → Str) : PyVal F → Prop
  | .str s => ws s = s
  | .dt d => d.micro % 1000 = 0 ∧ d.tz ≠ none
  | _ => True

/-- Every key is the key of its attribute, and no key occurs twice. -/
def OwnKeys (m : List (Str × Attr F)) : Prop := (dkeys m).Nodup ∧ ∀ p ∈ m, p.1 = p.2.key

mutual
/-- A canonical attribute: key and value survive the file, the extension is the one of the key, and the
nested attributes of a collection are its members. -/
def Canon (mgr : ExtMgr) (ws : Str → Str) : Attr F → Prop
  | .mk k key e v m c => ws key = key ∧ e = extFor mgr key ∧ CanonVal ws v ∧
    (if k.isCollection = true then CanonList mgr ws c ∧ m = rekey c else CanonMap mgr ws m ∧ OwnKeys m ∧ c = [])
/-- The same for a list. -/
def CanonList (mgr : ExtMgr) (ws : Str → Str) : List (Attr F) → Prop
  | [] => True
  | a :: as => Canon mgr ws a ∧ CanonList mgr ws as
/-- The same for the values of a map. -/
def CanonMap (mgr : ExtMgr) (ws : Str → Str) : List (Str × Attr F) → Prop
  | [] => True
  | (_, a) :: as => Canon mgr ws a ∧ CanonMap mgr ws as
end

/-- No nested attributes and no members. -/
def Attr.bare : Attr F → Prop
  | .mk _ _ _ _ m c => m = [] ∧ c = []

/-- A canonical classifier: named, with at least one key, and with keys the token encoding keeps. -/
structure CanonClassifier (ws : Str → Str) (k : Classifier) : Prop where
  name : k.name ≠ [] ∧ ws k.name = k.name
  keys : k.keys ≠ []
  good : ∀ t ∈ k.keys, GoodKey t
  kept : ∀ t ∈ k.keys, ws t = t
  bare : NoBareNeighbours k.keys

/-- Canonical content of a log. -/
structure CanonContent (mgr : ExtMgr) (ws : Str → Str) (c : Content F) : Prop where
  attrs : CanonMap mgr ws c.attrs ∧ OwnKeys c.attrs
  globalTrace : CanonList mgr ws c.globalTrace ∧ ∀ a ∈ c.globalTrace, a.bare
  globalEvent : CanonList mgr ws c.globalEvent ∧ ∀ a ∈ c.globalEvent, a.bare
  extensions : (∀ e ∈ c.extensions, ws e.pfx = e.pfx ∧ mgr.byPrefix e.pfx = some e) ∧ (c.extensions.map Ext.uri).Nodup
  classifiers : ∀ k ∈ c.classifiers, CanonClassifier ws k
  traces : ∀ t ∈ c.traces, (CanonMap mgr ws t.1 ∧ OwnKeys t.1) ∧ ∀ m ∈ t.2, CanonMap mgr ws m ∧ OwnKeys m

theorem normVal_canon {ws : Str → Str} {v : PyVal F} (h : CanonVal ws v) : normVal ws v = v := by
  cases v <;> simp only [CanonVal] at h <;> simp only [normVal]
  · rw [h]
  · rename_i d
    obtain ⟨h1, h2⟩ := h
    cases d with
    | mk y mo da ho mi se mc tz =>
      cases tz with
      | none => simp at h2
      | some o => simp at h1; simp [toMillisAware, h1]

theorem rekey_vals {m : List (Str × Attr F)} (h : OwnKeys m) : rekey (m.map Prod.snd) = m := by
  obtain ⟨h1, h2⟩ := h
  unfold rekey
  rw [List.foldl_map]
  have : ∀ (l : List (Str × Attr F)) (acc : List (Str × Attr F)), (∀ p ∈ l, p.1 = p.2.key) →
      l.foldl (fun m p => dset p.2.key p.2 m) acc = l.foldl (fun a p => dset p.1 p.2 a) acc := by
    intro l
    induction l with
    | nil => intro acc _; rfl
    | cons p l ih =>
      intro acc hl
      simp only [List.foldl_cons]
      rw [← hl p (by simp)]
      exact ih _ fun q hq => hl q (by simp [hq])
  rw [this m [] h2, foldl_dset_self h1]

mutual
theorem norm_canon (mgr : ExtMgr) (ws : Str → Str) : ∀ a : Attr F, Canon mgr ws a → normAttr mgr ws a = a
  | .mk k key e v m c, h => by
    simp only [Canon] at h
    obtain ⟨h1, h2, h3, h4⟩ := h
    cases hk : k.isCollection with
    | true =>
      simp only [hk, if_true] at h4
      simp only [normAttr, hk, if_true, h1, normVal_canon h3, normList_canon mgr ws c h4.1]
      rw [← h2, ← h4.2]
    | false =>
      simp only [hk, Bool.false_eq_true, if_false] at h4
      simp only [normAttr, hk, Bool.false_eq_true, if_false, h1, normVal_canon h3, normVals_canon mgr ws m h4.1, rekey_vals h4.2.1]
      rw [← h2, h4.2.2]
theorem normList_canon (mgr : ExtMgr) (ws : Str → Str) : ∀ as : List (Attr F), CanonList mgr ws as → normList mgr ws as = as
  | [], _ => by simp only [normList]
  | a :: as, h => by
    simp only [CanonList] at h
    simp only [normList, norm_canon mgr ws a h.1, normList_canon mgr ws as h.2]
theorem normVals_canon (mgr : ExtMgr) (ws : Str → Str) : ∀ as : List (Str × Attr F), CanonMap mgr ws as →
    normVals mgr ws as = as.map Prod.snd
  | [], _ => by simp only [normVals, List.map_nil]
  | (k, a) :: as, h => by
    simp only [CanonMap] at h
    simp only [normVals, norm_canon mgr ws a h.1, normVals_canon mgr ws as h.2, List.map_cons]
end

theorem flatList_canon (mgr : ExtMgr) (ws : Str → Str) : ∀ as : List (Attr F), CanonList mgr ws as → (∀ a ∈ as, a.bare) →
    flatList mgr ws as = as
  | [], _, _ => by simp only [flatList]
  | .mk k key e v m c :: as, h, hb => by
    simp only [CanonList, Canon] at h
    obtain ⟨⟨h1, h2, h3, _⟩, h4⟩ := h
    have hb0 : Attr.bare (.mk k key e v m c) := hb _ (List.mem_cons_self ..)
    obtain ⟨rfl, rfl⟩ : m = [] ∧ c = [] := hb0
    simp only [flatList, flatAttr, flatVals, ite_self, List.nil_append, h1, normVal_canon h3, List.singleton_append,
      flatList_canon mgr ws as h4 fun a ha => hb a (by simp [ha])]
    rw [← h2]

theorem distinctExts_self : ∀ es : List Ext, (es.map Ext.uri).Nodup → distinctExts es = es
  | [], _ => rfl
  | e :: es, h => by
    simp only [List.map_cons, List.nodup_cons] at h
    rw [distinctExts, distinctExts_self es h.2, List.filter_eq_self.2]
    intro f hf
    simp only [ne_eq, decide_not, Bool.not_eq_eq_eq_not, Bool.not_true, decide_eq_false_iff_not]
    intro hu
    exact h.1 (by rw [← hu]; exact List.mem_map.2 ⟨f, hf, rfl⟩)

theorem Channel.safe_of_fix {ws : Str → Str} (hc : Channel ws) {s : Str} (h : ws s = s) : ∀ c ∈ s, hc.safe c := by
  intro c hm
  rw [← h] at hm
  exact hc.out s c hm

theorem mem_join_blank {c : Char} : ∀ {xs : List Str}, c ∈ join [' '] xs → c = ' ' ∨ ∃ x ∈ xs, c ∈ x
  | [], h => by simp [join] at h
  | [x], h => by
    simp only [join] at h
    exact .inr ⟨x, by simp, h⟩
  | x :: y :: xs, h => by
    have h' : c ∈ x ∨ c = ' ' ∨ c ∈ join [' '] (y :: xs) := by simpa [join] using h
    rcases h' with h | h | h
    · exact .inr ⟨x, by simp, h⟩
    · exact .inl h
    · rcases mem_join_blank h with h | ⟨z, h1, h2⟩
      · exact .inl h
      · exact .inr ⟨z, List.mem_cons_of_mem _ h1, h2⟩

theorem formatToken_safe {ws : Str → Str} (hc : Channel ws) {ts : List Str} (h : ∀ t ∈ ts, ∀ c ∈ t, hc.safe c) :
    ws (formatToken ts) = formatToken ts := by
  refine hc.fix _ fun c hm => ?_
  have hb : hc.safe ' ' := hc.plain _ (by decide) (by decide)
  have hq : hc.safe '\'' := hc.plain _ (by decide) (by decide)
  rcases mem_join_blank hm with rfl | ⟨x, hx, hm⟩
  · exact hb
  · obtain ⟨t, ht, rfl⟩ := List.mem_map.1 (List.mem_filter.1 hx).1
    have : c = '\'' ∨ c ∈ t := by
      unfold quoteToken at hm
      grind
    rcases this with rfl | hm
    · exact hq
    · exact h t ht c hm

theorem formatToken_ne_nil {ts : List Str} (hg : ∀ t ∈ ts, GoodKey t) (hn : ts ≠ []) : formatToken ts ≠ [] := by
  intro h
  have := c01_extract_format hg
  rw [h] at this
  cases ts with
  | nil => exact hn rfl
  | cons a rest => exact glue_ne_nil (this.symm.trans (by decide))

theorem normClassifier_canon {ws : Str → Str} (hc : Channel ws) {k : Classifier} (h : CanonClassifier ws k) :
    normClassifier ws k = some k := by
  have hf := formatToken_safe hc (ts := k.keys) fun t ht => hc.safe_of_fix (h.kept t ht)
  unfold normClassifier
  rw [hf, h.name.2, if_pos ⟨h.name.1, formatToken_ne_nil h.good h.keys⟩, (c01_roundtrip_iff h.good).2 h.bare]

theorem norm_content (mgr : ExtMgr) {ws : Str → Str} (hc : Channel ws) {c : Content F} (h : CanonContent mgr ws c) :
    norm mgr ws c = { c with features := xesVersion } := by
  have he : c.extensions.filterMap (fun e => mgr.byPrefix (ws e.pfx)) = c.extensions := by
    have : ∀ es : List Ext, (∀ e ∈ es, ws e.pfx = e.pfx ∧ mgr.byPrefix e.pfx = some e) →
        es.filterMap (fun e => mgr.byPrefix (ws e.pfx)) = es := by
      intro es
      induction es with
      | nil => intro _; rfl
      | cons e es ih =>
        intro hh
        obtain ⟨q1, q2⟩ := hh e (by simp)
        rw [List.filterMap_cons_some (by rw [q1]; exact q2), ih fun e he => hh e (by simp [he])]
    exact this _ h.extensions.1
  have hk : c.classifiers.filterMap (normClassifier ws) = c.classifiers := by
    have : ∀ ks : List Classifier, (∀ k ∈ ks, CanonClassifier ws k) → ks.filterMap (normClassifier ws) = ks := by
      intro ks
      induction ks with
      | nil => intro _; rfl
      | cons k ks ih =>
        intro hh
        rw [List.filterMap_cons_some (normClassifier_canon hc (hh k (by simp))), ih fun k hk => hh k (by simp [hk])]
    exact this _ h.classifiers
  have hm : ∀ m : List (Str × Attr F), CanonMap mgr ws m ∧ OwnKeys m → rekey (normVals mgr ws m) = m := fun m hm => by
    rw [normVals_canon mgr ws m hm.1, rekey_vals hm.2]
  have ht : c.traces.map (fun t => (rekey (normVals mgr ws t.1), t.2.map fun m => rekey (normVals mgr ws m))) = c.traces := by
    refine (List.map_congr_left fun t htm => ?_).trans (List.map_id _)
    obtain ⟨q1, q2⟩ := h.traces t htm
    rw [hm _ q1, (List.map_congr_left fun m hmm => hm m (q2 m hmm)).trans (List.map_id _)]
    rfl
  unfold norm
  rw [hm _ h.attrs, he, distinctExts_self _ h.extensions.2, hk, flatList_canon mgr ws _ h.globalTrace.1 h.globalTrace.2,
    flatList_canon mgr ws _ h.globalEvent.1 h.globalEvent.2, ht]

/-- C38: a canonical log comes back from saving and loading with the same attributes, extensions,
classifiers, global attributes, traces and events. -/
theorem c38_roundtrip (mgr : ExtMgr) {ws : Str → Str} (hc : Channel ws) (hf : FloatText F) {L : Log F} (hL : WritableLog L)
    (hn : CanonContent mgr ws L.content) : SavesTo mgr ws L { L.content with features := xesVersion } := by
  rw [← norm_content mgr hc hn]
  exact c39_normal_form mgr hc hf hL

/-! ## C41: nested global attributes -/

/-- The attribute is written with children. -/
def Attr.nests : Attr F → Prop
  | .mk k _ _ _ m c => if k.isCollection = true then c ≠ [] else m ≠ []

theorem flatAttr_pos (mgr : ExtMgr) (ws : Str → Str) (a : Attr F) : 0 < (flatAttr mgr ws a).length := by
  cases a
  simp [flatAttr]

theorem flatAttr_nests (mgr : ExtMgr) (ws : Str → Str) {a : Attr F} (h : a.nests) : 1 < (flatAttr mgr ws a).length := by
  obtain ⟨k, key, e, v, m, c⟩ := a
  simp only [Attr.nests] at h
  simp only [flatAttr, List.length_append, List.length_cons, List.length_nil]
  cases hk : k.isCollection with
  | true =>
    simp only [hk, if_true] at h ⊢
    cases c with
    | nil => simp at h
    | cons b c =>
      have := flatAttr_pos mgr ws b
      simp only [flatList, List.length_append]; omega
  | false =>
    simp only [hk, Bool.false_eq_true, if_false] at h ⊢
    cases m with
    | nil => simp at h
    | cons b c =>
      obtain ⟨k, b⟩ := b
      have := flatAttr_pos mgr ws b
      simp only [flatVals, List.length_append]; omega

theorem flatList_length (mgr : ExtMgr) (ws : Str → Str) : ∀ as : List (Attr F), as.length ≤ (flatList mgr ws as).length ∧
    ((∃ a ∈ as, a.nests) → as.length < (flatList mgr ws as).length)
  | [] => by simp [flatList]
  | a :: as => by
    obtain ⟨h1, h2⟩ := flatList_length mgr ws as
    have h3 := flatAttr_pos mgr ws a
    simp only [flatList, List.length_append, List.length_cons]
    refine ⟨by omega, ?_⟩
    rintro ⟨b, hb, hn⟩
    simp only [List.mem_cons] at hb
    rcases hb with rfl | hb
    · have := flatAttr_nests mgr ws hn; omega
    · have := h2 ⟨b, hb, hn⟩; omega

theorem flatList_bare (mgr : ExtMgr) (ws : Str → Str) : ∀ as : List (Attr F), (∀ a ∈ as, ¬ a.nests) →
    flatList mgr ws as = as.map fun a => .mk a.kind (ws a.key) (extFor mgr (ws a.key)) (normVal ws a.val) [] []
  | [], _ => by simp only [flatList, List.map_nil]
  | .mk k key e v m c :: as, h => by
    have h0 := h _ (List.mem_cons_self ..)
    simp only [Attr.nests] at h0
    rw [flatList, flatList_bare mgr ws as fun a ha => h a (by simp [ha])]
    cases hk : k.isCollection with
    | true =>
      simp only [hk, if_true, ne_eq, Decidable.not_not] at h0
      subst h0
      simp [flatAttr, hk, flatList, Attr.kind, Attr.key, Attr.val]
    | false =>
      simp only [hk, Bool.false_eq_true, if_false, ne_eq, Decidable.not_not] at h0
      subst h0
      simp [flatAttr, hk, flatVals, Attr.kind, Attr.key, Attr.val]

/-- C41, refuted for every log with nesting: if some global trace (event) attribute has nested attributes
or members, the loaded log has more global trace (event) attributes than the saved one. -/
theorem c41_nested_globals_refuted (mgr : ExtMgr) {ws : Str → Str} (hc : Channel ws) (hf : FloatText F) {L : Log F}
    (hL : WritableLog L) : ∃ c, SavesTo mgr ws L c ∧
      ((∃ a ∈ L.globalTrace, a.nests) → L.globalTrace.length < c.globalTrace.length) ∧
      ((∃ a ∈ L.globalEvent, a.nests) → L.globalEvent.length < c.globalEvent.length) :=
  ⟨_, c39_normal_form mgr hc hf hL, (flatList_length mgr ws _).2, (flatList_length mgr ws _).2⟩

/-- C41, what holds: global attributes without nested attributes come back one for one and in order, and
in every case no loaded global attribute has nested attributes.  Missing: the nesting itself (false, see
`c41_nested_globals_refuted`). -/
theorem c41_globals_partial (mgr : ExtMgr) {ws : Str → Str} (hc : Channel ws) (hf : FloatText F) {L : Log F}
    (hL : WritableLog L) : ∃ c, SavesTo mgr ws L c ∧
      ((∀ a ∈ L.globalTrace, ¬ a.nests) → c.globalTrace = L.globalTrace.map fun a =>
        .mk a.kind (ws a.key) (extFor mgr (ws a.key)) (normVal ws a.val) [] []) ∧
      ((∀ a ∈ L.globalEvent, ¬ a.nests) → c.globalEvent = L.globalEvent.map fun a =>
        .mk a.kind (ws a.key) (extFor mgr (ws a.key)) (normVal ws a.val) [] []) :=
  ⟨_, c39_normal_form mgr hc hf hL, flatList_bare mgr ws _, flatList_bare mgr ws _⟩

/-! ## C40: the second trip -/

/-- `get_by_prefix` finds an extension of that prefix. -/
def LawfulMgr (mgr : ExtMgr) : Prop := ∀ p e, mgr.byPrefix p = some e → e.pfx = p

theorem normVal_val {ws : Str → Str} (hc : Channel ws) (v : PyVal F) : CanonVal ws (normVal ws v) := by
  cases v <;> simp only [normVal, CanonVal]
  · exact hc.idem _
  · rename_i d
    refine ⟨?_, by simp [toMillisAware]⟩
    simp only [toMillisAware]; omega

theorem rekey_own (cs : List (Attr F)) : OwnKeys (rekey cs) ∧ ∀ p ∈ rekey cs, p.2 ∈ cs := by
  have : ∀ (cs : List (Attr F)) (acc : List (Str × Attr F)), OwnKeys acc →
      OwnKeys (cs.foldl (fun m c => dset c.key c m) acc) ∧
      ∀ p ∈ cs.foldl (fun m c => dset c.key c m) acc, p.2 ∈ cs ∨ p ∈ acc := by
    intro cs
    induction cs with
    | nil => intro acc h; exact ⟨h, fun p hp => .inr hp⟩
    | cons c cs ih =>
      intro acc h
      obtain ⟨g1, g2⟩ := ih (dset c.key c acc) ⟨nodup_dset h.1, fun p hp => by
        rcases mem_dset hp with hp | rfl
        · exact h.2 p hp
        · rfl⟩
      refine ⟨g1, fun p hp => ?_⟩
      rcases g2 p hp with q | q
      · exact .inl (by simp [q])
      · rcases mem_dset q with q | rfl
        · exact .inr q
        · exact .inl (by simp)
  obtain ⟨g1, g2⟩ := this cs [] ⟨by simp [dkeys], by simp⟩
  exact ⟨g1, fun p hp => by simpa using g2 p hp⟩

theorem canonList_iff {mgr : ExtMgr} {ws : Str → Str} : ∀ {as : List (Attr F)}, CanonList mgr ws as ↔ ∀ a ∈ as, Canon mgr ws a
  | [] => by simp [CanonList]
  | a :: as => by simp [CanonList, canonList_iff (as := as)]

theorem canonMap_iff {mgr : ExtMgr} {ws : Str → Str} : ∀ {as : List (Str × Attr F)}, CanonMap mgr ws as ↔ ∀ p ∈ as, Canon mgr ws p.2
  | [] => by simp [CanonMap]
  | (k, a) :: as => by simp [CanonMap, canonMap_iff (as := as)]

theorem typedList_iff : ∀ {as : List (Attr F)}, TypedList as ↔ ∀ a ∈ as, Typed a
  | [] => by simp [TypedList]
  | a :: as => by simp [TypedList, typedList_iff (as := as)]

theorem typedMap_iff : ∀ {as : List (Str × Attr F)}, TypedMap as ↔ ∀ p ∈ as, Typed p.2
  | [] => by simp [TypedMap]
  | (k, a) :: as => by simp [TypedMap, typedMap_iff (as := as)]

theorem canon_rekey {mgr : ExtMgr} {ws : Str → Str} {cs : List (Attr F)} (h : CanonList mgr ws cs) : CanonMap mgr ws (rekey cs) :=
  canonMap_iff.2 fun p hp => canonList_iff.1 h _ ((rekey_own cs).2 p hp)

theorem typed_rekey {cs : List (Attr F)} (h : TypedList cs) : TypedMap (rekey cs) :=
  typedMap_iff.2 fun p hp => typedList_iff.1 h _ ((rekey_own cs).2 p hp)

theorem good_toMillis {d : DateTime} (g : GoodDateTime d) : GoodDateTime (toMillisAware d) := by
  refine ⟨g.year, g.month, g.day, ?_, ?_⟩
  · have := g.clock
    simp only [toMillisAware]; omega
  · intro o ho
    simp only [toMillisAware, Option.some.injEq] at ho
    cases htz : d.tz with
    | none => rw [htz] at ho; simp at ho; omega
    | some o' =>
      rw [htz] at ho
      simp at ho
      subst ho
      exact g.offset o' htz

theorem goodVal_norm {ws : Str → Str} {k : Kind} {v : PyVal F} (h : GoodVal k v) : GoodVal k (normVal ws v) := by
  cases k <;> cases v <;> simp only [GoodVal] at h <;> simp only [normVal, GoodVal]
  exact good_toMillis h

mutual
theorem norm_good (mgr : ExtMgr) {ws : Str → Str} (hc : Channel ws) : ∀ a : Attr F, Typed a →
    Canon mgr ws (normAttr mgr ws a) ∧ Typed (normAttr mgr ws a)
  | .mk k key e v m c, h => by
    simp only [Typed] at h
    obtain ⟨hv, hk⟩ := h
    cases hcol : k.isCollection with
    | true =>
      simp only [hcol, if_true] at hk
      obtain ⟨g1, g2⟩ := normList_good mgr hc c hk
      simp only [normAttr, hcol, if_true, Canon, Typed]
      exact ⟨⟨hc.idem _, trivial, normVal_val hc v, g1, trivial⟩, goodVal_norm hv, g2⟩
    | false =>
      simp only [hcol, Bool.false_eq_true, if_false] at hk
      obtain ⟨g1, g2⟩ := normVals_good mgr hc m hk
      simp only [normAttr, hcol, Bool.false_eq_true, if_false, Canon, Typed]
      exact ⟨⟨hc.idem _, trivial, normVal_val hc v, canon_rekey g1, (rekey_own _).1, trivial⟩, goodVal_norm hv, typed_rekey g2⟩
theorem normList_good (mgr : ExtMgr) {ws : Str → Str} (hc : Channel ws) : ∀ as : List (Attr F), TypedList as →
    CanonList mgr ws (normList mgr ws as) ∧ TypedList (normList mgr ws as)
  | [], _ => by simp [normList, CanonList, TypedList]
  | a :: as, h => by
    simp only [TypedList] at h
    obtain ⟨h1, h2⟩ := norm_good mgr hc a h.1
    obtain ⟨h3, h4⟩ := normList_good mgr hc as h.2
    simp only [normList, CanonList, TypedList]
    exact ⟨⟨h1, h3⟩, h2, h4⟩
theorem normVals_good (mgr : ExtMgr) {ws : Str → Str} (hc : Channel ws) : ∀ as : List (Str × Attr F), TypedMap as →
    CanonList mgr ws (normVals mgr ws as) ∧ TypedList (normVals mgr ws as)
  | [], _ => by simp [normVals, CanonList, TypedList]
  | (k, a) :: as, h => by
    simp only [TypedMap] at h
    obtain ⟨h1, h2⟩ := norm_good mgr hc a h.1
    obtain ⟨h3, h4⟩ := normVals_good mgr hc as h.2
    simp only [normVals, CanonList, TypedList]
    exact ⟨⟨h1, h3⟩, h2, h4⟩
end

mutual
theorem flat_good (mgr : ExtMgr) {ws : Str → Str} (hc : Channel ws) : ∀ a : Attr F, Typed a →
    ∀ b ∈ flatAttr mgr ws a, Canon mgr ws b ∧ Typed b ∧ b.bare
  | .mk k key e v m c, h => by
    simp only [Typed] at h
    obtain ⟨hv, hk⟩ := h
    intro b hb
    simp only [flatAttr, List.mem_append, List.mem_singleton] at hb
    rcases hb with hb | rfl
    · cases hcol : k.isCollection with
      | true =>
        simp only [hcol, if_true] at hk hb
        exact flatList_good mgr hc c hk b hb
      | false =>
        simp only [hcol, Bool.false_eq_true, if_false] at hk hb
        exact flatVals_good mgr hc m hk b hb
    · refine ⟨?_, ?_, rfl, rfl⟩
      · simp only [Canon, CanonList, CanonMap]
        refine ⟨hc.idem _, trivial, normVal_val hc v, ?_⟩
        split
        · exact ⟨trivial, rfl⟩
        · exact ⟨trivial, ⟨by simp [dkeys], by simp⟩, trivial⟩
      · simp only [Typed, TypedList, TypedMap, ite_self, and_true]
        exact goodVal_norm hv
theorem flatList_good (mgr : ExtMgr) {ws : Str → Str} (hc : Channel ws) : ∀ as : List (Attr F), TypedList as →
    ∀ b ∈ flatList mgr ws as, Canon mgr ws b ∧ Typed b ∧ b.bare
  | [], _ => by simp [flatList]
  | a :: as, h => by
    simp only [TypedList] at h
    intro b hb
    simp only [flatList, List.mem_append] at hb
    rcases hb with hb | hb
    · exact flat_good mgr hc a h.1 b hb
    · exact flatList_good mgr hc as h.2 b hb
theorem flatVals_good (mgr : ExtMgr) {ws : Str → Str} (hc : Channel ws) : ∀ as : List (Str × Attr F), TypedMap as →
    ∀ b ∈ flatVals mgr ws as, Canon mgr ws b ∧ Typed b ∧ b.bare
  | [], _ => by simp [flatVals]
  | (k, a) :: as, h => by
    simp only [TypedMap] at h
    intro b hb
    simp only [flatVals, List.mem_append] at hb
    rcases hb with hb | hb
    · exact flat_good mgr hc a h.1 b hb
    · exact flatVals_good mgr hc as h.2 b hb
end

theorem distinctExts_good : ∀ es : List Ext, ((distinctExts es).map Ext.uri).Nodup ∧ ∀ e ∈ distinctExts es, e ∈ es
  | [] => by simp [distinctExts]
  | e :: es => by
    obtain ⟨h1, h2⟩ := distinctExts_good es
    simp only [distinctExts, List.map_cons, List.nodup_cons, List.mem_cons]
    refine ⟨⟨?_, ?_⟩, ?_⟩
    · intro hm
      obtain ⟨f, hf, hu⟩ := List.mem_map.1 hm
      have := (List.mem_filter.1 hf).2
      simp [hu] at this
    · exact h1.sublist (List.Sublist.map _ List.filter_sublist)
    · rintro f (rfl | hf)
      · exact .inl rfl
      · exact .inr (h2 f (List.mem_filter.1 hf).1)

/-- Classifier keys the encoding can carry: not blank, without quotes, and with text the file keeps. -/
def GoodClassifier (ws : Str → Str) (k : Classifier) : Prop := ∀ t ∈ k.keys, GoodKey t ∧ ws t = t

theorem mem_glue {c : Char} : ∀ {ts : List Str} {g : Str}, g ∈ glue ts → c ∈ g → c = ' ' ∨ ∃ t ∈ ts, c ∈ t
  | [], g, hg, _ => by simp [glue] at hg
  | [a], g, hg, hc => by
    simp only [glue, List.mem_singleton] at hg
    subst hg
    exact .inr ⟨g, by simp, hc⟩
  | a :: b :: rest, g, hg, hc => by
    simp only [glue] at hg
    have lift : (c = ' ' ∨ ∃ t ∈ b :: rest, c ∈ t) → c = ' ' ∨ ∃ t ∈ a :: b :: rest, c ∈ t := by
      rintro (h | ⟨t, h1, h2⟩)
      · exact .inl h
      · exact .inr ⟨t, List.mem_cons_of_mem _ h1, h2⟩
    split at hg
    · split at hg
      · simp only [List.mem_singleton] at hg
        subst hg
        exact .inr ⟨g, by simp, hc⟩
      · next g' gs heq =>
        simp only [List.mem_cons] at hg
        rcases hg with rfl | hg
        · simp only [List.mem_append, List.mem_cons] at hc
          rcases hc with hc | hc | hc
          · exact .inr ⟨a, by simp, hc⟩
          · exact .inl hc
          · exact lift (mem_glue (ts := b :: rest) (by rw [heq]; simp) hc)
        · exact lift (mem_glue (ts := b :: rest) (by rw [heq]; simp [hg]) hc)
    · simp only [List.mem_cons] at hg
      rcases hg with rfl | hg
      · exact .inr ⟨g, by simp, hc⟩
      · exact lift (mem_glue hg hc)

/-- The keys of a good classifier come back glued, as in C01. -/
theorem normClassifier_good {ws : Str → Str} (hc : Channel ws) {k : Classifier} (h : GoodClassifier ws k) :
    normClassifier ws k = if ws k.name ≠ [] ∧ k.keys ≠ [] then some ⟨ws k.name, glue k.keys⟩ else none := by
  have hf := formatToken_safe hc (ts := k.keys) fun t ht => hc.safe_of_fix (h t ht).2
  unfold normClassifier
  rw [hf, c01_extract_format fun t ht => (h t ht).1]
  have : formatToken k.keys ≠ [] ↔ k.keys ≠ [] :=
    ⟨fun hn he => hn (by rw [he]; decide), formatToken_ne_nil fun t ht => (h t ht).1⟩
  simp only [this]

theorem norm_canonContent {mgr : ExtMgr} (hm : LawfulMgr mgr) {ws : Str → Str} (hc : Channel ws) {L : Log F} (hL : WritableLog L)
    (hk : ∀ k ∈ L.classifiers, GoodClassifier ws k) : CanonContent mgr ws (norm mgr ws L.content) := by
  have hmap : ∀ m : List (Str × Attr F), TypedMap m →
      CanonMap mgr ws (rekey (normVals mgr ws m)) ∧ OwnKeys (rekey (normVals mgr ws m)) :=
    fun m h => ⟨canon_rekey (normVals_good mgr hc m h).1, (rekey_own _).1⟩
  refine ⟨hmap _ hL.attrs, ?_, ?_, ?_, ?_, ?_⟩
  · exact ⟨canonList_iff.2 fun a ha => (flatList_good mgr hc _ hL.globalTrace a ha).1,
      fun a ha => (flatList_good mgr hc _ hL.globalTrace a ha).2.2⟩
  · exact ⟨canonList_iff.2 fun a ha => (flatList_good mgr hc _ hL.globalEvent a ha).1,
      fun a ha => (flatList_good mgr hc _ hL.globalEvent a ha).2.2⟩
  · obtain ⟨h1, h2⟩ := distinctExts_good (L.extensions.filterMap fun e => mgr.byPrefix (ws e.pfx))
    refine ⟨fun e he => ?_, h1⟩
    obtain ⟨f, _, hf⟩ := List.mem_filterMap.1 (h2 e he)
    have := hm _ _ hf
    rw [this]
    exact ⟨hc.idem _, hf⟩
  · intro k hkm
    obtain ⟨k0, hk0, he⟩ := List.mem_filterMap.1 hkm
    have hg := hk k0 hk0
    rw [normClassifier_good hc hg] at he
    split at he
    · next hne =>
      simp only [Option.some.injEq] at he
      subst he
      refine ⟨⟨hne.1, hc.idem _⟩, ?_, ?_, ?_, noBare_glue _⟩
      · cases hks : k0.keys with
        | nil => exact absurd hks hne.2
        | cons a rest => exact glue_ne_nil
      · intro t ht
        rw [← c01_extract_format fun t ht => (hg t ht).1] at ht
        exact c03_tokens_clean _ t ht
      · intro t ht
        refine hc.fix _ fun c hcm => ?_
        rcases mem_glue ht hcm with rfl | ⟨t', h1, h2⟩
        · exact hc.plain _ (by decide) (by decide)
        · exact hc.safe_of_fix (hg t' h1).2 c h2
    · simp at he
  · intro t ht
    obtain ⟨t0, ht0, rfl⟩ := List.mem_map.1 ht
    obtain ⟨t1, ht1, rfl⟩ := List.mem_map.1 ht0
    obtain ⟨g1, g2⟩ := hL.traces t1 ht1
    refine ⟨hmap _ g1, fun m hm => ?_⟩
    obtain ⟨m0, hm0, rfl⟩ := List.mem_map.1 hm
    obtain ⟨e, he, rfl⟩ := List.mem_map.1 hm0
    exact hmap _ (g2 e he)

theorem norm_typed {mgr : ExtMgr} {ws : Str → Str} (hc : Channel ws) {L L1 : Log F} (hL : WritableLog L)
    (h1 : L1.content = norm mgr ws L.content) : WritableLog L1 := by
  have hmap : ∀ m : List (Str × Attr F), TypedMap m → TypedMap (rekey (normVals mgr ws m)) :=
    fun m h => typed_rekey (normVals_good mgr hc m h).2
  have ea : L1.attrs = _ := congrArg Content.attrs h1
  have et : L1.globalTrace = _ := congrArg Content.globalTrace h1
  have ee : L1.globalEvent = _ := congrArg Content.globalEvent h1
  have er : L1.traces.map (fun t => (t.attrs, t.events.map Event.attrs)) = _ := congrArg Content.traces h1
  refine ⟨?_, ?_, ?_, ?_⟩
  · rw [ea]; exact hmap _ hL.attrs
  · rw [et]; exact typedList_iff.2 fun a ha => (flatList_good mgr hc _ hL.globalTrace a ha).2.1
  · rw [ee]; exact typedList_iff.2 fun a ha => (flatList_good mgr hc _ hL.globalEvent a ha).2.1
  · intro t ht
    have hm := List.mem_map_of_mem (f := fun t : Trace F => (t.attrs, t.events.map Event.attrs)) ht
    rw [er] at hm
    obtain ⟨p, hp, he⟩ := List.mem_map.1 hm
    obtain ⟨t0, ht0, rfl⟩ := List.mem_map.1 hp
    obtain ⟨g1, g2⟩ := hL.traces t0 ht0
    simp only [Prod.mk.injEq] at he
    refine ⟨by rw [← he.1]; exact hmap _ g1, fun e hem => ?_⟩
    have hm := List.mem_map_of_mem (f := Event.attrs) hem
    rw [← he.2] at hm
    obtain ⟨m, hm, hme⟩ := List.mem_map.1 hm
    obtain ⟨e0, he0, rfl⟩ := List.mem_map.1 hm
    rw [← hme]
    exact hmap _ (g2 e0 he0)

/-- C40: saving and loading twice is the same as once.  `L1` is the loaded log, as a value. -/
theorem c40_second_trip {mgr : ExtMgr} (hm : LawfulMgr mgr) {ws : Str → Str} (hc : Channel ws) (hf : FloatText F) {L L1 : Log F}
    (hL : WritableLog L) (hk : ∀ k ∈ L.classifiers, GoodClassifier ws k) (h1 : SavesTo mgr ws L L1.content) :
    SavesTo mgr ws L1 L1.content := by
  have h2 := c39_unique h1 (c39_normal_form mgr hc hf hL)
  have h3 := c39_normal_form mgr hc hf (norm_typed hc hL h2)
  have h4 := norm_canonContent hm hc hL hk
  rw [← h2] at h4
  rw [norm_content mgr hc h4] at h3
  have : L1.content.features = xesVersion := by rw [h2]; rfl
  rw [← this] at h3
  exact h3

end

/-! ## Examples -/

/-- Tabs and line ends come back as blanks. -/
def blanked (s : Str) : Str := s.map fun c => if c = '\t' ∨ c = '\n' ∨ c = '\r' then ' ' else c

/-- This is a channel. -/
def blankedChannel : Channel blanked where
  safe c := c ≠ '\t' ∧ c ≠ '\n' ∧ c ≠ '\r'
  out s c hc := by
    obtain ⟨d, _, rfl⟩ := List.mem_map.1 hc
    by_cases h : d = '\t' ∨ d = '\n' ∨ d = '\r'
    · simp only [h, if_true]; decide
    · simp only [h, if_false]; simpa [not_or] using h
  fix s h := by
    refine (List.map_congr_left fun c hc => ?_).trans (List.map_id _)
    obtain ⟨h1, h2, h3⟩ := h c hc
    simp [h1, h2, h3]
  plain c h1 h2 := by
    refine ⟨?_, ?_, ?_⟩ <;> (rintro rfl; revert h1; decide)

theorem toyFloatText : FloatText ToyFloat := by
  intro x c hc
  have hc : c ∈ intStr x.n ++ ['.', '0'] := hc
  simp only [List.mem_append, List.mem_cons, List.not_mem_nil, or_false] at hc
  rcases hc with hc | rfl | rfl
  · exact plain_intStr _ c hc
  · decide
  · decide

/-- A concept extension. -/
def tripConcept : Ext := ⟨py!"Concept", py!"concept", py!"http://www.xes-standard.org/concept.xesext"⟩

/-- It is the only registered one. -/
def tripMgr : ExtMgr := ⟨fun p => if p = py!"concept" then some tripConcept else none, fun _ => .ok none⟩

theorem tripMgr_lawful : LawfulMgr tripMgr := by
  intro p e h
  simp only [tripMgr] at h
  split at h
  · simp only [Option.some.injEq] at h; subst h; simp_all [tripConcept]
  · simp at h

/-- A name with a nested count. -/
def tripName : Attr ToyFloat :=
  .mk .literal py!"concept:name" (some tripConcept) (.str py!"register") [(py!"n", .mk .discrete py!"n" none (.int (-3)) [] [])] []

/-- A list with one member. -/
def tripList : Attr ToyFloat :=
  .mk .list py!"xs" none .none [(py!"b", .mk .boolean py!"b" none (.bool true) [] [])]
    [.mk .boolean py!"b" none (.bool true) [] []]

/-- A timestamp: 2010-12-30 11:02:00.123+01:00. -/
def tripTime : Attr ToyFloat := .mk .timestamp py!"when" none (.dt ⟨2010, 12, 30, 11, 2, 0, 123000, some 3600⟩) [] []

/-- A canonical log. -/
def tripLog : Log ToyFloat :=
  ⟨[(py!"concept:name", tripName)], [tripConcept], [⟨py!"both", [py!"concept:name", py!"a b"]⟩],
    [.mk .literal py!"g" none (.str py!"?") [] []], [], [(py!"mine", py!"1")],
    [⟨[(py!"xs", tripList)], [⟨0, [(py!"when", tripTime)]⟩, ⟨1, []⟩]⟩]⟩

theorem tripTime_good : GoodDateTime ⟨2010, 12, 30, 11, 2, 0, 123000, some 3600⟩ :=
  ⟨by decide, by decide, by decide, by decide, fun o h => by simp at h; omega⟩

theorem tripLog_typed : WritableLog tripLog := by
  refine ⟨?_, ?_, ?_, ?_⟩ <;>
    simp [tripLog, tripName, tripList, tripTime, Typed, TypedMap, TypedList, GoodVal, Kind.isCollection, tripTime_good]

theorem tripLog_canon : CanonContent tripMgr blanked tripLog.content := by
  have e1 : extFor tripMgr py!"concept:name" = some tripConcept := by decide
  have e2 : extFor tripMgr py!"n" = none := by decide
  have e3 : extFor tripMgr py!"g" = none := by decide
  have e4 : extFor tripMgr py!"xs" = none := by decide
  have e5 : extFor tripMgr py!"b" = none := by decide
  have e6 : extFor tripMgr py!"when" = none := by decide
  have w1 : blanked py!"concept:name" = py!"concept:name" := by decide
  have w2 : blanked py!"n" = py!"n" := by decide
  have w3 : blanked py!"g" = py!"g" := by decide
  have w4 : blanked py!"xs" = py!"xs" := by decide
  have w5 : blanked py!"b" = py!"b" := by decide
  have w6 : blanked py!"when" = py!"when" := by decide
  have w7 : blanked py!"register" = py!"register" := by decide
  have w8 : blanked py!"?" = py!"?" := by decide
  refine ⟨?_, ?_, ?_, ?_, ?_, ?_⟩
  · simp [tripLog, Log.content, tripName, CanonMap, Canon, CanonVal, OwnKeys, dkeys, Kind.isCollection, Attr.key, e1, e2, w1, w2, w7]
  · simp [tripLog, Log.content, CanonList, CanonMap, Canon, CanonVal, OwnKeys, dkeys, Kind.isCollection, Attr.bare, e3, w3, w8]
  · simp [tripLog, Log.content, CanonList]
  · refine ⟨?_, by simp [tripLog, Log.content]⟩
    simp only [tripLog, Log.content, List.mem_singleton, forall_eq]
    decide
  · simp only [tripLog, Log.content, List.mem_singleton, forall_eq]
    refine ⟨by decide, by decide, ?_, by decide, ?_⟩
    · intro t ht
      simp only [List.mem_cons, List.not_mem_nil, or_false] at ht
      rcases ht with rfl | rfl
      · exact goodKey_ab _ (by simp)
      · have := c03_tokens_clean py!"'a b'" py!"a b" (by decide)
        exact this
    · rw [noBare_cons_cons]
      exact ⟨by decide, (glue_eq_self_iff _).1 (by decide)⟩
  · simp [tripLog, Log.content, tripList, tripTime, CanonMap, CanonList, Canon, CanonVal, OwnKeys, dkeys, Kind.isCollection,
      Attr.key, rekey, dset, e4, e5, e6, w4, w5, w6]

/-- C38 applies to this log. -/
example : SavesTo tripMgr blanked tripLog { tripLog.content with features := xesVersion } :=
  c38_roundtrip tripMgr blankedChannel toyFloatText tripLog_typed tripLog_canon

/-- A log that is not canonical: a tab in a text, a naive timestamp with microseconds, a wrong map key,
a wrong extension, nesting in a global attribute, and neighbouring bare classifier keys. -/
def roughLog : Log ToyFloat :=
  ⟨[(py!"wrong", .mk .literal py!"note" (some tripConcept) (.str ['a', '\t', 'b']) [] [])], [tripConcept, tripConcept],
    [⟨py!"c", [py!"x", py!"y"]⟩, ⟨[], [py!"x"]⟩], [tripName], [],
    [], [⟨[], [⟨0, [(py!"t", .mk .timestamp py!"t" none (.dt ⟨2010, 12, 30, 11, 2, 0, 123456, none⟩) [] [])]⟩]⟩]⟩

theorem roughLog_typed : WritableLog roughLog := by
  have : GoodDateTime ⟨2010, 12, 30, 11, 2, 0, 123456, none⟩ :=
    ⟨by decide, by decide, by decide, by decide, fun o h => by simp at h⟩
  refine ⟨?_, ?_, ?_, ?_⟩ <;>
    simp [roughLog, tripName, Typed, TypedMap, TypedList, GoodVal, Kind.isCollection, this]

/-- What C39 says about it. -/
example : SavesTo tripMgr blanked roughLog
    ⟨[(py!"note", .mk .literal py!"note" none (.str py!"a b") [] [])], [tripConcept], [⟨py!"c", [py!"x y"]⟩],
      [.mk .discrete py!"n" none (.int (-3)) [] [], .mk .literal py!"concept:name" (some tripConcept) (.str py!"register") [] []],
      [], xesVersion,
      [([], [[(py!"t", .mk .timestamp py!"t" none (.dt ⟨2010, 12, 30, 11, 2, 0, 123000, some 0⟩) [] [])]])]⟩ := by
  have h := c39_normal_form tripMgr blankedChannel toyFloatText roughLog_typed
  have e1 : extFor tripMgr py!"concept:name" = some tripConcept := by decide
  have e2 : extFor tripMgr py!"n" = none := by decide
  have e3 : extFor tripMgr py!"note" = none := by decide
  have e4 : extFor tripMgr py!"t" = none := by decide
  have w1 : blanked py!"concept:name" = py!"concept:name" := by decide
  have w2 : blanked py!"n" = py!"n" := by decide
  have w3 : blanked py!"note" = py!"note" := by decide
  have w4 : blanked py!"t" = py!"t" := by decide
  have w5 : blanked py!"register" = py!"register" := by decide
  have w6 : blanked ['a', '\t', 'b'] = py!"a b" := by decide
  have x1 : distinctExts ([tripConcept, tripConcept].filterMap fun e => tripMgr.byPrefix (blanked e.pfx)) = [tripConcept] := by
    decide
  have x2 : [⟨py!"c", [py!"x", py!"y"]⟩, ⟨[], [py!"x"]⟩].filterMap (normClassifier blanked) = [⟨py!"c", [py!"x y"]⟩] := by decide
  simpa [norm, roughLog, Log.content, tripName, normVals, normAttr, flatList, flatAttr, flatVals, rekey, dset, Kind.isCollection,
    normVal, Attr.key, toMillisAware, e1, e2, e3, e4, w1, w2, w3, w4, w5, w6, x1, x2] using h

/-- C41: its global attribute nests, so it comes back as two. -/
example : ∃ a ∈ roughLog.globalTrace, a.nests := ⟨tripName, by simp [roughLog], by simp [tripName, Attr.nests, Kind.isCollection]⟩

/-- C40: the classifier keys of both logs are good. -/
example : ∀ k ∈ roughLog.classifiers, GoodClassifier blanked k := by
  have hx : GoodKey py!"x" := c03_tokens_clean py!"x" _ (by decide)
  have hy : GoodKey py!"y" := c03_tokens_clean py!"y" _ (by decide)
  intro k hk t ht
  simp only [roughLog, List.mem_cons, List.not_mem_nil, or_false] at hk
  rcases hk with rfl | rfl <;> simp only [List.mem_cons, List.not_mem_nil, or_false] at ht
  · rcases ht with rfl | rfl
    · exact ⟨hx, by decide⟩
    · exact ⟨hy, by decide⟩
  · subst ht; exact ⟨hx, by decide⟩

end Opy
