import Verif.Props.MxmlHeap
import Verif.Props.MxmlRead
import Verif.Props.DateText
import Verif.Props.Nones
/-
Property C172: which MXML files give traces with `None` among their events.
-/
set_option linter.unusedSectionVars false
namespace Opy

/-! ## Specification -/

mutual
/-- The element, or one within it, has this name. -/
def MNode.has (name : Str) : MNode → Prop
  | .elem t _ ks => t = name ∨ MNode.hasAny name ks
  | .text _ => False
/-- The same for a list. -/
def MNode.hasAny (name : Str) : List MNode → Prop
  | [] => False
  | x :: xs => x.has name ∨ MNode.hasAny name xs
end

mutual
/-- No element with this name lies within another one. -/
def MNode.flat (name : Str) : MNode → Prop
  | .elem t _ ks => MNode.flatAll name ks ∧ (t = name → ¬ MNode.hasAny name ks)
  | .text _ => True
/-- The same for a list. -/
def MNode.flatAll (name : Str) : List MNode → Prop
  | [] => True
  | x :: xs => x.flat name ∧ MNode.flatAll name xs
end

/-! ## The tags -/

/-- Whether the last tag with this name is a start tag. -/
def tagFlag (name : Str) : Bool → List MSax → Bool
  | o, [] => o
  | o, .start t _ :: es => tagFlag name (if t = name then true else o) es
  | o, .stop t :: es => tagFlag name (if t = name then false else o) es
  | o, .chars _ :: es => tagFlag name o es

/-- Every end tag with this name follows a start tag with it. -/
def StopsMatch (name : Str) : Bool → List MSax → Prop
  | _, [] => True
  | o, .start t _ :: es => StopsMatch name (if t = name then true else o) es
  | o, .stop t :: es => (t = name → o = true) ∧ StopsMatch name (if t = name then false else o) es
  | o, .chars _ :: es => StopsMatch name o es

/-- No start tag with this name follows a start tag with it. -/
def StartsMatch (name : Str) : Bool → List MSax → Prop
  | _, [] => True
  | o, .start t _ :: es => (t = name → o = false) ∧ StartsMatch name (if t = name then true else o) es
  | o, .stop t :: es => StartsMatch name (if t = name then false else o) es
  | o, .chars _ :: es => StartsMatch name o es

theorem tagFlag_append {name : Str} : ∀ {a b : List MSax} {o : Bool}, tagFlag name o (a ++ b) = tagFlag name (tagFlag name o a) b
  | [], _, _ => rfl
  | .start _ _ :: a, _, _ => tagFlag_append (a := a)
  | .stop _ :: a, _, _ => tagFlag_append (a := a)
  | .chars _ :: a, _, _ => tagFlag_append (a := a)

theorem stopsMatch_append {name : Str} : ∀ {a b : List MSax} {o : Bool},
    StopsMatch name o (a ++ b) ↔ StopsMatch name o a ∧ StopsMatch name (tagFlag name o a) b
  | [], _, _ => by simp [StopsMatch, tagFlag]
  | .start _ _ :: a, _, _ => stopsMatch_append (a := a)
  | .chars _ :: a, _, _ => stopsMatch_append (a := a)
  | .stop t :: a, b, o => by
    simp only [List.cons_append, StopsMatch, tagFlag]
    rw [stopsMatch_append (a := a), and_assoc]

theorem startsMatch_append {name : Str} : ∀ {a b : List MSax} {o : Bool},
    StartsMatch name o (a ++ b) ↔ StartsMatch name o a ∧ StartsMatch name (tagFlag name o a) b
  | [], _, _ => by simp [StartsMatch, tagFlag]
  | .stop _ :: a, _, _ => startsMatch_append (a := a)
  | .chars _ :: a, _, _ => startsMatch_append (a := a)
  | .start t as :: a, b, o => by
    simp only [List.cons_append, StartsMatch, tagFlag]
    rw [startsMatch_append (a := a), and_assoc]

/-- Only text. -/
def OnlyChars (g : List MSax) : Prop := ∀ e ∈ g, ∃ w, e = MSax.chars w

theorem onlyChars_flags {name : Str} {o : Bool} : ∀ {g : List MSax}, OnlyChars g → tagFlag name o g = o ∧ StopsMatch name o g ∧ StartsMatch name o g
  | [], _ => ⟨rfl, trivial, trivial⟩
  | e :: g, h => by
    obtain ⟨w, rfl⟩ := h _ (.head _)
    exact onlyChars_flags (g := g) fun x hx => h x (.tail _ hx)

theorem Gap.onlyChars {g : List MSax} (h : Gap g) : OnlyChars g := fun e he => (h e he).imp fun _ q => q.1

theorem onlyChars_map (cs : List Str) : OnlyChars (cs.map .chars) := fun e he => by
  obtain ⟨w, _, rfl⟩ := List.mem_map.1 he
  exact ⟨w, rfl⟩

/-- What is to be shown of the events of a node or of nodes: `p` says that the name occurs, `q` that it is not nested. -/
structure TagFacts (name : Str) (p q : Prop) (s : List MSax) : Prop where
  hasnt : ¬ p → ∀ o, tagFlag name o s = o
  has : p → ∀ o, tagFlag name o s = false
  stops : ∀ o, StopsMatch name o s ↔ q
  starts : q → StartsMatch name false s
  startsAll : ¬ p → ∀ o, StartsMatch name o s

theorem TagFacts.ofChars {name : Str} {s : List MSax} (h : OnlyChars s) : TagFacts name False True s :=
  ⟨fun _ _ => (onlyChars_flags h).1, nofun, fun _ => ⟨fun _ => trivial, fun _ => (onlyChars_flags h).2.1⟩, fun _ => (onlyChars_flags h).2.2,
    fun _ _ => (onlyChars_flags h).2.2⟩

theorem TagFacts.falseFlag {name : Str} {p q : Prop} {s : List MSax} (h : TagFacts name p q s) : tagFlag name false s = false := by
  by_cases hp : p
  · exact h.has hp _
  · exact h.hasnt hp _

theorem TagFacts.append {name : Str} {p q p' q' : Prop} {s s' : List MSax} (h : TagFacts name p q s) (h' : TagFacts name p' q' s') :
    TagFacts name (p ∨ p') (q ∧ q') (s ++ s') := by
  refine ⟨fun hp o => ?_, fun hp o => ?_, fun o => ?_, fun hq => ?_, fun hp o => ?_⟩
  · rw [not_or] at hp
    rw [tagFlag_append, h.hasnt hp.1, h'.hasnt hp.2]
  · rw [tagFlag_append]
    rcases hp with hp | hp
    · rw [h.has hp, h'.falseFlag]
    · exact h'.has hp _
  · rw [stopsMatch_append, h.stops, h'.stops]
  · rw [startsMatch_append, h.falseFlag]
    exact ⟨h.starts hq.1, h'.starts hq.2⟩
  · rw [not_or] at hp
    rw [startsMatch_append]
    exact ⟨h.startsAll hp.1 o, h'.startsAll hp.2 _⟩

theorem TagFacts.elem {name t : Str} {as : List (Str × Str)} {p q : Prop} {s : List MSax} (h : TagFacts name p q s) :
    TagFacts name (t = name ∨ p) (q ∧ (t = name → ¬ p)) (.start t as :: (s ++ [.stop t])) := by
  refine ⟨fun hp o => ?_, fun hp o => ?_, fun o => ?_, fun hq => ?_, fun hp o => ?_⟩
  · rw [not_or] at hp
    simp only [tagFlag, tagFlag_append, if_neg hp.1]
    exact h.hasnt hp.2 _
  · simp only [tagFlag, tagFlag_append]
    by_cases ht : t = name
    · simp [ht]
    · rw [if_neg ht, if_neg ht]
      exact h.has (hp.resolve_left ht) _
  · simp only [StopsMatch, stopsMatch_append, h.stops, and_true]
    constructor
    · rintro ⟨a, b⟩
      refine ⟨a, fun ht hp => ?_⟩
      have := b ht
      rw [h.has hp] at this
      cases this
    · rintro ⟨a, b⟩
      refine ⟨a, fun ht => ?_⟩
      rw [h.hasnt (b ht), if_pos ht]
  · simp only [StartsMatch, startsMatch_append, implies_true, true_and, and_true]
    by_cases ht : t = name
    · rw [if_pos ht]
      exact h.startsAll (hq.2 ht) _
    · rw [if_neg ht]
      exact h.starts hq.1
  · rw [not_or] at hp
    simp only [StartsMatch, startsMatch_append, if_neg hp.1, and_true]
    exact ⟨fun ht => absurd ht hp.1, h.startsAll hp.2 _⟩

mutual
theorem tagFacts {ws tx : Str → Str} (name : Str) : ∀ {x : MNode} {s : List MSax}, Reads ws tx x s → TagFacts name (x.has name) (x.flat name) s
  | .text _, _, .text _ => .ofChars (onlyChars_map _)
  | .elem _ _ _, _, .elem h => (tagFactsAll name h).elem
theorem tagFactsAll {ws tx : Str → Str} (name : Str) : ∀ {xs : List MNode} {s : List MSax}, ReadsAll ws tx xs s →
    TagFacts name (MNode.hasAny name xs) (MNode.flatAll name xs) s
  | [], _, .nil h => .ofChars h.onlyChars
  | x :: xs, _, .cons hg hx hs => by
    have := (TagFacts.ofChars (name := name) hg.onlyChars).append ((tagFacts name hx).append (tagFactsAll name hs))
    simp only [false_or, true_and] at this
    exact this
end

section
variable {F : Type} [PyFloat F]

/-! ## On values: no `None` if no entry ends twice -/

theorem intoEntry_other {st : MxmlSt F} {a : Attr F} : intoEntry st a ≠ .error .other := by
  unfold intoEntry
  split <;> simp

theorem routeSource_other {st : MxmlSt F} {a : Attr F} : routeSource st a ≠ .error .other := by
  unfold routeSource
  repeat' split
  all_goals simp

theorem routeProcess_other {st : MxmlSt F} {a : Attr F} : routeProcess st a ≠ .error .other := by
  unfold routeProcess
  repeat' split
  all_goals first | exact routeSource_other | simp

theorem routeAttribute_other {st : MxmlSt F} {a : Attr F} : routeAttribute st a ≠ .error .other := by
  unfold routeAttribute
  repeat' split
  all_goals first | exact routeProcess_other | simp

theorem bind_error {α β : Type} {x : Except PyErr α} {f : α → Except PyErr β} {e : PyErr} (h : (x >>= f) = .error e) :
    x = .error e ∨ ∃ a, x = .ok a ∧ f a = .error e := by
  cases x with
  | error e' => cases h; exact .inl rfl
  | ok a => exact .inr ⟨a, rfl, h⟩

theorem appendEntry_other {st : MxmlSt F} (h : appendEntry st = .error .other) : st.entry = none := by
  unfold appendEntry at h
  split at h
  · cases h
  · cases h
  · assumption

theorem stopEntry_other {st : MxmlSt F} (h : stopEntry st = .error .other) : st.entry = none := by
  rcases bind_error h with h | ⟨_, _, h⟩
  · split at h
    · exact appendEntry_other h
    · split at h
      · rcases bind_error h with h | ⟨_, _, h⟩
        · exact appendEntry_other h
        · cases h
      · rcases bind_error h with h | ⟨_, _, h⟩
        · unfold DateTime.lt at h
          split at h <;> cases h
        · rcases bind_error h with h | ⟨_, _, h⟩
          · exact appendEntry_other h
          · split at h <;> cases h
  · cases h

theorem mxmlStart_other {rnd : Nat → Uuid} {st : MxmlSt F} {t : Str} {as : List (Str × Str)} : mxmlStart rnd st t as ≠ .error .other := by
  unfold mxmlStart startAttribute startElementName
  repeat' split
  all_goals simp

theorem mxmlStopBody_other {st : MxmlSt F} {t : Str} (h : mxmlStopBody st t = .error .other) : t = py!"AuditTrailEntry" ∧ st.entry = none := by
  unfold mxmlStopBody at h
  split at h
  · cases h
  split at h
  · unfold stopProcess at h
    split at h <;> cases h
  split at h
  · unfold stopInstance at h
    repeat' split at h
    all_goals cases h
  split at h
  · rename_i ht
    exact ⟨ht, stopEntry_other h⟩
  split at h
  · unfold stopAttribute at h
    split at h
    · split at h
      · cases h
      · rcases bind_error h with h | ⟨_, _, h⟩
        · exact absurd h routeAttribute_other
        · cases h
    · cases h
  split at h
  · unfold stopEventType at h
    split at h
    · cases h
    · rcases bind_error h with h | ⟨_, _, h⟩
      · repeat' split at h
        all_goals first | exact absurd h intoEntry_other | cases h
      · cases h
  split at h
  · unfold stopElementName at h
    repeat' split at h
    all_goals cases h
  split at h
  · rcases bind_error h with h | ⟨_, _, h⟩
    · have := (c05_exact.1 h).1
      cases this
    · split at h
      · cases h
      · exact absurd h intoEntry_other
  split at h
  · unfold stopOriginator at h
    split at h
    · cases h
    · rcases bind_error h with h | ⟨_, _, h⟩
      · exact absurd h intoEntry_other
      · cases h
  · cases h

/-- The only step that needs a `None`. -/
theorem mxmlStep_other {rnd : Nat → Uuid} {st : MxmlSt F} {e : MSax} (he : mxmlStep rnd st e = .error .other) :
    e = .stop py!"AuditTrailEntry" ∧ st.entry = none := by
  cases e with
  | start t as => exact absurd he mxmlStart_other
  | chars s => cases he
  | stop t =>
    rcases bind_error he with h | ⟨_, _, h⟩
    · obtain ⟨h1, h2⟩ := mxmlStopBody_other h
      exact ⟨by rw [h1], h2⟩
    · cases h

/-! ## On objects: what each event does to the open elements -/

theorem newAttr_lasts (h : Heap F) (k : Kind) (key : Str) (e : Option Ext) (v : PyVal F) : Lasts h (newAttr h k key e v).2 := by
  rw [newAttr_eq]
  exact .more ..

theorem cloneAttr_lasts {h h' : Heap F} {a c : Ref} (hr : cloneAttr h a = .ok (c, h')) : Lasts h h' := by
  have key : ∀ k key e v, newAttr h k key e v = (c, h') → Lasts h h' := fun k key e v q => by
    have := newAttr_lasts h k key e v
    rw [q] at this
    exact this
  unfold cloneAttr at hr
  repeat' split at hr
  all_goals first | (cases hr; done) | exact key _ _ _ _ (Except.ok.inj hr)

theorem setValue_lasts {h h' : Heap F} {a : Ref} {v : PyVal F} (hr : setValue h a v = .ok h') : Lasts h h' := by
  unfold setValue at hr
  split at hr
  · rename_i ho
    split at hr <;> cases hr
    exact .put ho trivial
  · cases hr

theorem keepAttr_lasts {h h' : Heap F} {x : Option Ref} {a : Ref} (hr : keepAttr h x a = .ok h') : Lasts h h' := by
  unfold keepAttr at hr
  split at hr
  · cases hr
  · obtain ⟨_, _, hr⟩ := bind_ok.1 hr
    obtain ⟨_, _, hr⟩ := bind_ok.1 hr
    exact mapSet_lasts hr

theorem mobRef_lasts {P : Protos} {as : List (Str × Str)} {h h' : Heap F} {x : Option Ref} (hr : mobRef P as h x = .ok h') : Lasts h h' := by
  unfold mobRef at hr
  split at hr
  · cases hr
    exact .refl _
  · obtain ⟨⟨a, h1⟩, g1, hr⟩ := bind_ok.1 hr
    obtain ⟨h2, g2, hr⟩ := bind_ok.1 hr
    exact (cloneAttr_lasts g1).trans ((setValue_lasts g2).trans (keepAttr_lasts hr))

theorem mobDescription_lasts {keep : Str → Bool} {as : List (Str × Str)} {h h' : Heap F} {x : Ref} (hr : mobDescription keep as h x = .ok h') :
    Lasts h h' := by
  unfold mobDescription at hr
  split at hr
  · cases hr
    exact .refl _
  · split at hr
    · exact (newAttr_lasts ..).trans (keepAttr_lasts hr)
    · cases hr
      exact .refl _

theorem storeGiven_lasts {p : Ref} {key : Str} {v : Option Str} {f : Str → PyVal F} {h h' : Heap F} {el : Ref}
    (hr : mobExt (storeGiven p key v f h el) = .ok h') : Lasts h h' := by
  unfold storeGiven at hr
  split at hr
  · cases hr
    exact .refl _
  split at hr
  · unfold storeClone at hr
    split at hr
    · cases hr
    rename_i g1
    simp only at hr
    split at hr
    · cases hr
    rename_i g2
    split at hr
    · cases hr
    split at hr
    · cases hr
    rename_i g3
    cases hr
    exact (cloneAttr_lasts g1).trans ((setValue_lasts g2).trans (mapSet_lasts g3))
  · cases hr
    exact .refl _

/-- The open elements and the logs are the same. -/
structure SameOpen (st st' : MobSt F) : Prop where
  lasts : Lasts st.heap st'.heap
  entry : st'.entry = st.entry
  inst : st'.inst = st.inst
  process : st'.process = st.process
  logs : st'.logs = st.logs

theorem SameOpen.refl (st : MobSt F) : SameOpen st st := ⟨.refl _, rfl, rfl, rfl, rfl⟩

/-- The tags that open and close elements. -/
def isOpening (t : Str) : Prop := t = py!"Process" ∨ t = py!"ProcessInstance" ∨ t = py!"AuditTrailEntry"

theorem start_same {rnd : Nat → Uuid} {P : Protos} {st st' : MobSt F} {t : Str} {as : List (Str × Str)} (ht : ¬ isOpening t)
    (hr : mobStart rnd P st t as = .ok st') : SameOpen st st' := by
  unfold isOpening at ht
  rw [not_or, not_or] at ht
  unfold mobStart at hr
  simp only [if_neg ht.1, if_neg ht.2.1, if_neg ht.2.2] at hr
  split at hr
  · cases hr; exact .refl _
  split at hr
  · obtain ⟨h, g, hr⟩ := bind_ok.1 hr
    cases hr
    exact ⟨(newAttr_lasts ..).trans (mobRef_lasts g), rfl, rfl, rfl, rfl⟩
  split at hr
  · unfold mobStartAttribute at hr
    split at hr
    · cases hr
    obtain ⟨h, g, hr⟩ := bind_ok.1 hr
    cases hr
    exact ⟨(newAttr_lasts ..).trans (mobRef_lasts g), rfl, rfl, rfl, rfl⟩
  split at hr
  · obtain ⟨⟨a, h1⟩, g1, hr⟩ := bind_ok.1 hr
    obtain ⟨h2, g2, hr⟩ := bind_ok.1 hr
    obtain ⟨h3, g3, hr⟩ := bind_ok.1 hr
    cases hr
    exact ⟨(cloneAttr_lasts g1).trans ((setValue_lasts g2).trans (mobRef_lasts g3)), rfl, rfl, rfl, rfl⟩
  split at hr
  · obtain ⟨h3, g3, hr⟩ := bind_ok.1 hr
    cases hr
    exact ⟨mobRef_lasts g3, rfl, rfl, rfl, rfl⟩
  split at hr
  · obtain ⟨⟨a, h1⟩, g1, hr⟩ := bind_ok.1 hr
    obtain ⟨h3, g3, hr⟩ := bind_ok.1 hr
    cases hr
    exact ⟨(cloneAttr_lasts g1).trans (mobRef_lasts g3), rfl, rfl, rfl, rfl⟩
  · cases hr; exact .refl _

theorem mobRoute_lasts {st : MobSt F} {h h' : Heap F} {a : Ref} (hr : mobRoute st h a = .ok h') : Lasts h h' := by
  unfold mobRoute at hr
  repeat' split at hr
  all_goals first | exact keepAttr_lasts hr | (cases hr; exact .refl _)

theorem stop_same {P : Protos} {st st' : MobSt F} {t : Str} (ht : ¬ isOpening t) (hr : mobStopBody P st t = .ok st') : SameOpen st st' := by
  unfold isOpening at ht
  rw [not_or, not_or] at ht
  unfold mobStopBody at hr
  simp only [if_neg ht.1, if_neg ht.2.1, if_neg ht.2.2] at hr
  split at hr
  · cases hr; exact .refl _
  split at hr
  · unfold mobStopAttribute at hr
    split at hr
    · split at hr
      · cases hr
      · obtain ⟨h1, g1, hr⟩ := bind_ok.1 hr
        obtain ⟨h2, g2, hr⟩ := bind_ok.1 hr
        cases hr
        exact ⟨(setValue_lasts g1).trans (mobRoute_lasts g2), rfl, rfl, rfl, rfl⟩
    · cases hr
      exact ⟨.refl _, rfl, rfl, rfl, rfl⟩
  split at hr
  · unfold mobStopEventType at hr
    split at hr
    · cases hr
    obtain ⟨v, _, hr⟩ := bind_ok.1 hr
    obtain ⟨h1, g1, hr⟩ := bind_ok.1 hr
    cases hr
    refine ⟨?_, rfl, rfl, rfl, rfl⟩
    split at g1
    · split at g1
      · obtain ⟨h2, g2, g3⟩ := bind_ok.1 g1
        exact (setValue_lasts g2).trans (keepAttr_lasts g3)
      · cases g1
        exact .refl _
    · exact keepAttr_lasts g1
  split at hr
  · unfold mobStopElementName at hr
    split at hr
    · split at hr
      · cases hr
      obtain ⟨h1, g1, hr⟩ := bind_ok.1 hr
      cases hr
      exact ⟨storeGiven_lasts g1, rfl, rfl, rfl, rfl⟩
    · cases hr; exact .refl _
  split at hr
  · obtain ⟨v, _, hr⟩ := bind_ok.1 hr
    split at hr
    · cases hr
      exact ⟨.refl _, rfl, rfl, rfl, rfl⟩
    · obtain ⟨⟨a, h1⟩, g1, hr⟩ := bind_ok.1 hr
      obtain ⟨h2, g2, hr⟩ := bind_ok.1 hr
      obtain ⟨h3, g3, hr⟩ := bind_ok.1 hr
      cases hr
      exact ⟨(cloneAttr_lasts g1).trans ((setValue_lasts g2).trans (keepAttr_lasts g3)), rfl, rfl, rfl, rfl⟩
  split at hr
  · unfold mobStopOriginator at hr
    split at hr
    · cases hr
    obtain ⟨h1, g1, hr⟩ := bind_ok.1 hr
    obtain ⟨h2, g2, hr⟩ := bind_ok.1 hr
    cases hr
    refine ⟨Lasts.trans ?_ (keepAttr_lasts g2), rfl, rfl, rfl, rfl⟩
    split at g1
    · exact setValue_lasts g1
    · cases g1
      exact .refl _
  · cases hr; exact .refl _

theorem startProcess_opens {rnd : Nat → Uuid} {P : Protos} {st st' : MobSt F} {as : List (Str × Str)}
    (hr : mobStart rnd P st py!"Process" as = .ok st') :
    Lasts st.heap st'.heap ∧ st'.entry = st.entry ∧ st'.inst = st.inst ∧ st'.process.isSome = true ∧ st'.logs = st.logs := by
  have e : mobStart rnd P st py!"Process" as = mobStartProcess P st as := rfl
  rw [e] at hr
  unfold mobStartProcess at hr
  rw [createLog_eq] at hr
  obtain ⟨h1, g1, hr⟩ := bind_ok.1 hr
  simp only at hr
  have hr : ∃ h2, Lasts h1 h2 ∧ (do
      let h ← mobExt (assignNameAt P (dget py!"id" as) h2 (st.heap.size + 2))
      let h ← mobExt (assignModelAt P (some py!"standard") h (st.heap.size + 2))
      let h ← mobDescription (fun d => decide (0 < List.length (pyLower d))) as h (st.heap.size + 2)
      let h ← mobRef P as h (some (st.heap.size + 2))
      Except.ok { st with heap := h, process := some (st.heap.size + 2) }) = .ok st' := by
    split at hr
    · obtain ⟨h2, g2, hr⟩ := bind_ok.1 hr
      exact ⟨h2, keepAttr_lasts g2, hr⟩
    · exact ⟨h1, .refl _, hr⟩
  obtain ⟨h2, k2, hr⟩ := hr
  obtain ⟨h3, g3, hr⟩ := bind_ok.1 hr
  obtain ⟨h4, g4, hr⟩ := bind_ok.1 hr
  obtain ⟨h5, g5, hr⟩ := bind_ok.1 hr
  obtain ⟨h6, g6, hr⟩ := bind_ok.1 hr
  cases hr
  exact ⟨(Lasts.more ..).trans ((modLog_lasts (by intro _; rfl) g1).trans (k2.trans ((storeGiven_lasts g3).trans ((storeGiven_lasts g4).trans
    ((mobDescription_lasts g5).trans (mobRef_lasts g6)))))), rfl, rfl, rfl, rfl⟩

theorem startInstance_opens {rnd : Nat → Uuid} {P : Protos} {st st' : MobSt F} {as : List (Str × Str)}
    (hr : mobStart rnd P st py!"ProcessInstance" as = .ok st') :
    Lasts st.heap st'.heap ∧ st'.entry = st.entry ∧ st'.inst.isSome = true ∧ st'.process = st.process ∧ st'.logs = st.logs := by
  have e : mobStart rnd P st py!"ProcessInstance" as = mobStartInstance P st as := rfl
  rw [e] at hr
  unfold mobStartInstance at hr
  rw [createTrace_eq] at hr
  obtain ⟨h1, g1, hr⟩ := bind_ok.1 hr
  obtain ⟨h2, g2, hr⟩ := bind_ok.1 hr
  obtain ⟨h3, g3, hr⟩ := bind_ok.1 hr
  cases hr
  exact ⟨(Lasts.more ..).trans ((storeGiven_lasts g1).trans ((mobDescription_lasts g2).trans (mobRef_lasts g3))), rfl, rfl, rfl, rfl⟩

theorem startEntry_opens {rnd : Nat → Uuid} {P : Protos} {st st' : MobSt F} {as : List (Str × Str)}
    (hr : mobStart rnd P st py!"AuditTrailEntry" as = .ok st') :
    Lasts st.heap st'.heap ∧ st'.entry.isSome = true ∧ st'.inst = st.inst ∧ st'.process = st.process ∧ st'.logs = st.logs := by
  have e : mobStart rnd P st py!"AuditTrailEntry" as = .ok (mobStartEntry rnd st) := rfl
  rw [e] at hr
  unfold mobStartEntry at hr
  rw [createEvent_eq] at hr
  cases hr
  exact ⟨.more .., rfl, rfl, rfl, rfl⟩

theorem stopProcess_closes {P : Protos} {st st' : MobSt F} (hr : mobStopProcess P st = .ok st') :
    Lasts st.heap st'.heap ∧ st'.entry = st.entry ∧ st'.inst = st.inst ∧ st'.process = none ∧ st'.logs = st.logs ++ st.process.toList := by
  unfold mobStopProcess at hr
  obtain ⟨h1, g1, hr⟩ := bind_ok.1 hr
  obtain ⟨⟨a2, h2⟩, g2, hr⟩ := bind_ok.1 hr
  obtain ⟨h3, g3, hr⟩ := bind_ok.1 hr
  obtain ⟨⟨a4, h4⟩, g4, hr⟩ := bind_ok.1 hr
  obtain ⟨h5, g5, hr⟩ := bind_ok.1 hr
  obtain ⟨⟨a6, h6⟩, g6, hr⟩ := bind_ok.1 hr
  obtain ⟨h7, g7, hr⟩ := bind_ok.1 hr
  cases hr
  exact ⟨(modLog_lasts (by intro _; rfl) g1).trans ((cloneAttr_lasts g2).trans ((modLog_lasts (by intro _; rfl) g3).trans ((cloneAttr_lasts g4).trans
    ((modLog_lasts (by intro _; rfl) g5).trans ((cloneAttr_lasts g6).trans (modLog_lasts (by intro _; rfl) g7)))))), rfl, rfl, rfl, rfl⟩

theorem stopInstance_closes {st st' : MobSt F} (hr : mobStopInstance st = .ok st') :
    Lasts st.heap st'.heap ∧ st'.entry = st.entry ∧ st'.inst = none ∧ st'.process = st.process ∧ st'.logs = st.logs ∧
      ∀ t, st.inst = some t → HoldsNone st.heap t → ∃ p, st.process = some p ∧ LogHoldsNone st'.heap p := by
  unfold mobStopInstance at hr
  obtain ⟨n, g1, hr⟩ := bind_ok.1 hr
  split at hr
  · split at hr
    · rename_i p t hp ht
      obtain ⟨h2, g2, hr⟩ := bind_ok.1 hr
      cases hr
      refine ⟨logAppend_lasts g2, rfl, rfl, rfl, rfl, fun t' ht' hn => ⟨p, hp, ?_⟩⟩
      rw [ht] at ht'
      cases ht'
      have hn' := (logAppend_lasts g2).holds hn
      unfold logAppend at g2
      split at g2
      · rename_i o ho
        cases g2
        exact .inr ⟨_, t, get_put_self _ (get_lt ho), by simp, hn'⟩
      · cases g2
    · cases hr
  · rename_i hlt
    cases hr
    refine ⟨.refl _, rfl, rfl, rfl, rfl, fun t ht hn => ?_⟩
    obtain ⟨r, _, ⟨m, es, h2, h3⟩ | ⟨l, h2, h3⟩⟩ := hn
    · simp only [lenTrace, ht, h2, Except.ok.injEq] at g1
      subst g1
      exact absurd (List.length_pos_of_mem h3) hlt
    · simp only [lenTrace, ht, h2] at g1
      cases g1

theorem mobAppend_out {st st' : MobSt F} (hr : mobAppend st = .ok st') :
    Lasts st.heap st'.heap ∧ st'.inst = st.inst ∧ st'.process = st.process ∧ st'.logs = st.logs ∧
      (st.entry = none → ∃ t, st.inst = some t ∧ HoldsNone st'.heap t) := by
  unfold mobAppend at hr
  split at hr
  · cases hr
  rename_i t ht
  cases he : st.entry with
  | some e =>
    simp only [he] at hr
    obtain ⟨h1, g1, hr⟩ := bind_ok.1 hr
    cases hr
    exact ⟨traceAppend_lasts g1, rfl, rfl, rfl, nofun⟩
  | none =>
    simp only [he] at hr
    obtain ⟨h1, g1, hr⟩ := bind_ok.1 hr
    cases hr
    refine ⟨(Lasts.alloc ..).trans (traceAppend_lasts g1), rfl, rfl, rfl, fun _ => ⟨t, ht, ?_⟩⟩
    have k := (traceAppend_lasts g1).1 st.heap.size (by simp [Heap.alloc, Heap.get, Heap.size])
    unfold traceAppend at g1
    split at g1
    · rename_i m es ho
      cases g1
      exact ⟨_, k, .inl ⟨m, _, get_put_self _ (get_lt ho), by simp [Heap.alloc, Heap.size]⟩⟩
    · cases g1

theorem stopEntry_closes {st st' : MobSt F} (hr : mobStopEntry st = .ok st') :
    Lasts st.heap st'.heap ∧ st'.entry = none ∧ st'.inst = st.inst ∧ st'.process = st.process ∧ st'.logs = st.logs ∧
      (st.entry = none → ∃ t, st.inst = some t ∧ HoldsNone st'.heap t) := by
  unfold mobStopEntry at hr
  obtain ⟨s, g1, hr⟩ := bind_ok.1 hr
  cases hr
  split at g1
  · obtain ⟨a, b, c, d, e⟩ := mobAppend_out g1
    exact ⟨a, rfl, b, c, d, e⟩
  split at g1
  · obtain ⟨s', g2, hr⟩ := bind_ok.1 g1
    cases hr
    obtain ⟨a, b, c, d, e⟩ := mobAppend_out g2
    exact ⟨a, rfl, b, c, d, e⟩
  · obtain ⟨gt, _, g1⟩ := bind_ok.1 g1
    obtain ⟨s', g2, hr⟩ := bind_ok.1 g1
    obtain ⟨a, b, c, d, e⟩ := mobAppend_out g2
    split at hr <;> cases hr <;> exact ⟨a, rfl, b, c, d, e⟩

/-! ## The run -/

/-- What is open, for each of the three names. -/
structure Flags (st : MobSt F) (e i p : Bool) : Prop where
  entry : st.entry.isSome = e
  inst : st.inst.isSome = i
  process : st.process.isSome = p

/-- There is a `None` in a log of the result, in the open log or in the open trace. -/
def NoneYetIn (st : MobSt F) : Prop :=
  (∃ l ∈ st.logs, LogHoldsNone st.heap l) ∨ (∃ l, st.process = some l ∧ LogHoldsNone st.heap l) ∨ ∃ t, st.inst = some t ∧ HoldsNone st.heap t

theorem NoneYetIn.mono {st st' : MobSt F} (k : Lasts st.heap st'.heap) (h1 : st'.inst = st.inst) (h2 : st'.process = st.process)
    (h3 : st'.logs = st.logs) (h : NoneYetIn st) : NoneYetIn st' := by
  unfold NoneYetIn
  rw [h1, h2, h3]
  rcases h with ⟨l, a, b⟩ | ⟨l, a, b⟩ | ⟨l, a, b⟩
  · exact .inl ⟨l, a, k.logHolds b⟩
  · exact .inr (.inl ⟨l, a, k.logHolds b⟩)
  · exact .inr (.inr ⟨l, a, k.holds b⟩)

/-- One event. -/
theorem mobStep_flags {rnd : Nat → Uuid} {P : Protos} {st st' : MobSt F} {ev : MSax} (hr : mobStep rnd P st ev = .ok st') {e i p : Bool}
    (hf : Flags st e i p) :
    Flags st' (tagFlag py!"AuditTrailEntry" e [ev]) (tagFlag py!"ProcessInstance" i [ev]) (tagFlag py!"Process" p [ev]) ∧
    (StartsMatch py!"ProcessInstance" i [ev] → StartsMatch py!"Process" p [ev] → NoneYetIn st ∨ ¬ StopsMatch py!"AuditTrailEntry" e [ev] → NoneYetIn st') := by
  cases ev with
  | chars s =>
    cases hr
    exact ⟨⟨hf.entry, hf.inst, hf.process⟩, fun _ _ h => h.elim (fun h => h) (fun h => absurd trivial h)⟩
  | start t as =>
    simp only [mobStep] at hr
    by_cases h1 : t = py!"Process"
    · subst h1
      obtain ⟨a, b, c, d, f⟩ := startProcess_opens hr
      refine ⟨⟨by rw [b]; exact hf.entry, by rw [c]; exact hf.inst, d⟩, fun _ h2 h3 => ?_⟩
      have hp : st.process = none := by
        have := hf.process
        rw [h2.1 rfl] at this
        simpa using this
      rcases h3 with h3 | h3
      · rcases h3 with ⟨l, q, w⟩ | ⟨l, q, w⟩ | ⟨l, q, w⟩
        · exact .inl ⟨l, by rw [f]; exact q, a.logHolds w⟩
        · rw [hp] at q; cases q
        · exact .inr (.inr ⟨l, by rw [c]; exact q, a.holds w⟩)
      · exact absurd trivial h3
    by_cases h2 : t = py!"ProcessInstance"
    · subst h2
      obtain ⟨a, b, c, d, f⟩ := startInstance_opens hr
      refine ⟨⟨by rw [b]; exact hf.entry, c, by rw [d]; exact hf.process⟩, fun h2 _ h3 => ?_⟩
      have hp : st.inst = none := by
        have := hf.inst
        rw [h2.1 rfl] at this
        simpa using this
      rcases h3 with h3 | h3
      · rcases h3 with ⟨l, q, w⟩ | ⟨l, q, w⟩ | ⟨l, q, w⟩
        · exact .inl ⟨l, by rw [f]; exact q, a.logHolds w⟩
        · exact .inr (.inl ⟨l, by rw [d]; exact q, a.logHolds w⟩)
        · rw [hp] at q; cases q
      · exact absurd trivial h3
    by_cases h3 : t = py!"AuditTrailEntry"
    · subst h3
      obtain ⟨a, b, c, d, f⟩ := startEntry_opens hr
      refine ⟨⟨b, by rw [c]; exact hf.inst, by rw [d]; exact hf.process⟩, fun _ _ h3 => ?_⟩
      rcases h3 with h3 | h3
      · exact h3.mono a c d f
      · exact absurd trivial h3
    · have so := start_same (t := t) (by rintro (h | h | h) <;> contradiction) hr
      simp only [tagFlag, if_neg h1, if_neg h2, if_neg h3]
      refine ⟨⟨by rw [so.entry]; exact hf.entry, by rw [so.inst]; exact hf.inst, by rw [so.process]; exact hf.process⟩, fun _ _ h4 => ?_⟩
      rcases h4 with h4 | h4
      · exact h4.mono so.lasts so.inst so.process so.logs
      · exact absurd trivial h4
  | stop t =>
    obtain ⟨s, hr', q⟩ := bind_ok.1 hr
    cases q
    clear hr
    have hr := hr'
    by_cases h1 : t = py!"Process"
    · subst h1
      obtain ⟨a, b, c, d, f⟩ := stopProcess_closes (P := P) (st := st) (st' := s) hr
      refine ⟨⟨by simp only [b]; exact hf.entry, by simp only [c]; exact hf.inst, by simp only [d]; rfl⟩, fun _ _ h3 => ?_⟩
      rcases h3 with h3 | h3
      · rcases h3 with ⟨l, q, w⟩ | ⟨l, q, w⟩ | ⟨l, q, w⟩
        · exact .inl ⟨l, by simp only [f]; exact List.mem_append_left _ q, a.logHolds w⟩
        · exact .inl ⟨l, by simp [f, q], a.logHolds w⟩
        · exact .inr (.inr ⟨l, by simp only [c]; exact q, a.holds w⟩)
      · exact absurd ⟨fun h => (by cases h), trivial⟩ h3
    by_cases h2 : t = py!"ProcessInstance"
    · subst h2
      obtain ⟨a, b, c, d, f, g⟩ := stopInstance_closes (st := st) (st' := s) hr
      refine ⟨⟨by simp only [b]; exact hf.entry, by simp only [c]; rfl, by simp only [d]; exact hf.process⟩, fun _ _ h3 => ?_⟩
      rcases h3 with h3 | h3
      · rcases h3 with ⟨l, q, w⟩ | ⟨l, q, w⟩ | ⟨l, q, w⟩
        · exact .inl ⟨l, by simp only [f]; exact q, a.logHolds w⟩
        · exact .inr (.inl ⟨l, by simp only [d]; exact q, a.logHolds w⟩)
        · obtain ⟨p', w1, w2⟩ := g l q w
          exact .inr (.inl ⟨p', by simp only [d]; exact w1, w2⟩)
      · exact absurd ⟨fun h => (by cases h), trivial⟩ h3
    by_cases h3 : t = py!"AuditTrailEntry"
    · subst h3
      obtain ⟨a, b, c, d, f, g⟩ := stopEntry_closes (st := st) (st' := s) hr
      refine ⟨⟨by simp only [b]; rfl, by simp only [c]; exact hf.inst, by simp only [d]; exact hf.process⟩, fun _ _ h3 => ?_⟩
      rcases h3 with h3 | h3
      · exact h3.mono a c d f
      · have he : st.entry = none := by
          have := hf.entry
          cases e
          · simpa using this
          · exact absurd ⟨fun _ => rfl, trivial⟩ h3
        obtain ⟨t, w1, w2⟩ := g he
        exact .inr (.inr ⟨t, by simp only [c]; exact w1, w2⟩)
    · have so := stop_same (t := t) (by rintro (h | h | h) <;> contradiction) hr
      simp only [tagFlag, if_neg h1, if_neg h2, if_neg h3]
      refine ⟨⟨by simp only [so.entry]; exact hf.entry, by simp only [so.inst]; exact hf.inst, by simp only [so.process]; exact hf.process⟩, fun _ _ h4 => ?_⟩
      rcases h4 with h4 | h4
      · exact h4.mono so.lasts so.inst so.process so.logs
      · exact absurd ⟨fun h => absurd h h3, trivial⟩ h4

/-- The ends of processes and instances need them open. -/
theorem mobStep_stops {rnd : Nat → Uuid} {P : Protos} {st st' : MobSt F} {ev : MSax} (hr : mobStep rnd P st ev = .ok st') {e i p : Bool}
    (hf : Flags st e i p) : StopsMatch py!"ProcessInstance" i [ev] ∧ StopsMatch py!"Process" p [ev] := by
  cases ev with
  | chars s => exact ⟨trivial, trivial⟩
  | start t as => exact ⟨trivial, trivial⟩
  | stop t =>
    obtain ⟨s, hr', q⟩ := bind_ok.1 hr
    refine ⟨⟨?_, trivial⟩, ?_, trivial⟩
    · rintro rfl
      have hr' : mobStopInstance st = .ok s := hr'
      obtain ⟨n, g1, _⟩ := bind_ok.1 hr'
      rw [← hf.inst]
      cases hi : st.inst with
      | some t => rfl
      | none => rw [hi] at g1; cases g1
    · rintro rfl
      have hr' : mobStopProcess P st = .ok s := hr'
      obtain ⟨n, g1, _⟩ := bind_ok.1 hr'
      rw [← hf.process]
      cases hi : st.process with
      | some t => rfl
      | none => rw [hi] at g1; cases g1

/-- All events. -/
theorem mobRun_flags {rnd : Nat → Uuid} {P : Protos} : ∀ {evs : List MSax} {st st' : MobSt F}, mobRun rnd P st evs = .ok st' → ∀ {e i p : Bool},
    Flags st e i p →
    Flags st' (tagFlag py!"AuditTrailEntry" e evs) (tagFlag py!"ProcessInstance" i evs) (tagFlag py!"Process" p evs) ∧
    (StartsMatch py!"ProcessInstance" i evs → StartsMatch py!"Process" p evs → NoneYetIn st ∨ ¬ StopsMatch py!"AuditTrailEntry" e evs → NoneYetIn st')
  | [], st, st', hr, e, i, p, hf => by
    cases hr
    exact ⟨hf, fun _ _ h => h.elim (fun h => h) (fun h => absurd trivial h)⟩
  | ev :: evs, st, st', hr, e, i, p, hf => by
    obtain ⟨s, h1, h2⟩ := bind_ok.1 hr
    obtain ⟨f1, n1⟩ := mobStep_flags h1 hf
    obtain ⟨f2, n2⟩ := mobRun_flags h2 f1
    have cut : ev :: evs = [ev] ++ evs := rfl
    rw [cut]
    simp only [tagFlag_append, startsMatch_append, stopsMatch_append]
    refine ⟨f2, fun ⟨a1, a2⟩ ⟨b1, b2⟩ h => n2 a2 b2 ?_⟩
    rcases h with h | h
    · exact .inl (n1 a1 b1 (.inl h))
    · by_cases hs : StopsMatch py!"AuditTrailEntry" e [ev]
      · exact .inr fun h' => h ⟨hs, h'⟩
      · exact .inl (n1 a1 b1 (.inr hs))

theorem mobRun_stops {rnd : Nat → Uuid} {P : Protos} : ∀ {evs : List MSax} {st st' : MobSt F}, mobRun rnd P st evs = .ok st' → ∀ {e i p : Bool},
    Flags st e i p → StopsMatch py!"ProcessInstance" i evs ∧ StopsMatch py!"Process" p evs
  | [], _, _, _, _, _, _, _ => ⟨trivial, trivial⟩
  | ev :: evs, st, st', hr, e, i, p, hf => by
    obtain ⟨s, h1, h2⟩ := bind_ok.1 hr
    have cut : ev :: evs = [ev] ++ evs := rfl
    have k1 := mobStep_stops h1 hf
    have k2 := mobRun_stops h2 (mobStep_flags h1 hf).1
    rw [cut, stopsMatch_append, stopsMatch_append]
    exact ⟨⟨k1.1, k2.1⟩, k1.2, k2.2⟩

/-- Without entries that end twice, the run on values needs no `None`. -/
theorem mxmlRun_other {rnd : Nat → Uuid} {P : Protos} {h0 : Heap F} (hP : MxmlProtos h0 P) : ∀ {evs : List MSax} {st : MxmlSt F} {hs : MobSt F}
    {own : Ref → Tag} {srcs : List Ref} {e i p : Bool}, MobRel h0 st hs own srcs → Flags hs e i p → StopsMatch py!"AuditTrailEntry" e evs →
    mxmlRun (fun k => rnd (h0.drawn + k)) st evs ≠ .error .other
  | [], _, _, _, _, _, _, _, _, _, _ => nofun
  | ev :: evs, st, hs, own, srcs, e, i, p, R, hf, hm => by
    intro he
    have cut : ev :: evs = [ev] ++ evs := rfl
    rw [cut, stopsMatch_append] at hm
    rcases bind_error he with h | ⟨s, h1, h2⟩
    · obtain ⟨rfl, hn⟩ := mxmlStep_other h
      have hq := R.entry
      rw [hn] at hq
      have : hs.entry = none := by
        cases hx : hs.entry with
        | none => rfl
        | some r => rw [hx] at hq; exact hq.elim
      have h2 := hf.entry
      rw [this, hm.1.1 rfl] at h2
      cases h2
    · have := step_sim rnd R hP ev
      rw [h1] at this
      obtain ⟨hs', own', srcs', q, m⟩ := this
      exact mxmlRun_other hP m (mobStep_flags q hf).1 hm.2 h2

theorem seesLog_none {h : Heap F} {x : Log F} {l : Ref} (hs : SeesLog h x l) : ¬ LogHoldsNone h l := by
  obtain ⟨o, d, g1, _, _, _, _, _, _, _, g2⟩ := hs
  have tr : ∀ t ∈ o.traces, ∃ y, SeesTrace h y t := fun t ht => (denAll_mem g2 ht).imp fun _ q => q.2
  rintro (⟨r, h1, ⟨m, es, h2, h3⟩ | ⟨o', h2, h3⟩⟩ | ⟨o', t, h1, h2, r, h3, ⟨m, es, h4, h5⟩ | ⟨o'', h4, h5⟩⟩)
  · rw [g1] at h2; cases h2
  · rw [g1] at h2
    cases h2
    obtain ⟨y, m, d, es, k1, _⟩ := tr r h3
    rw [h1] at k1
    cases k1
  · rw [g1] at h1
    cases h1
    obtain ⟨y, m', d, es', k1, _, _, k2⟩ := tr t h2
    rw [h4] at k1
    cases k1
    obtain ⟨z, _, m'', d', k3, _⟩ := denAll_mem k2 h5
    rw [h3] at k3
    cases k3
  · rw [g1] at h1
    cases h1
    obtain ⟨y, m', d, es', k1, _⟩ := tr t h2
    rw [h4] at k1
    cases k1

theorem init_flags (h : Heap F) : Flags (.init h) false false false := ⟨rfl, rfl, rfl⟩

/-- **C172, the part that holds.** If no `AuditTrailEntry` lies within another one, then what is loaded shows logs, with events only in its
traces, and no `None`. -/
theorem c172_partial {rnd : Nat → Uuid} {P : Protos} {h : Heap F} (hP : MxmlProtos h P) {x : MNode} (hx : x.flat py!"AuditTrailEntry")
    {ws tx : Str → Str} {s : List MSax} (hs : Reads ws tx x s) {refs : List Ref} {h' : Heap F} (hr : mobParse rnd P h s = .ok (refs, h')) :
    (∃ logs, (mxmlParse (fun k => rnd (h.drawn + k)) s : Except PyErr (List (Log F))) = .ok logs ∧ DenAll (SeesLog h') logs refs) ∧
      ∀ l ∈ refs, ¬ LogHoldsNone h' l := by
  have hn := mxmlRun_other (rnd := rnd) hP (init_sim h) (init_flags h) (((tagFacts py!"AuditTrailEntry" hs).stops false).2 hx)
  cases hq : (mxmlParse (fun k => rnd (h.drawn + k)) s : Except PyErr (List (Log F))) with
  | error e =>
    have he : e ≠ .other := by
      rintro rfl
      rcases bind_error hq with q | ⟨_, _, q⟩
      · exact hn q
      · cases q
    rw [c170_refused rnd hP hq he] at hr
    cases hr
  | ok logs =>
    obtain ⟨refs', h'', a, b, _, _⟩ := c170_objects rnd hP hq
    rw [hr] at a
    cases a
    exact ⟨⟨logs, rfl, b⟩, fun l hl => by
      obtain ⟨y, _, hy⟩ := denAll_mem b hl
      exact seesLog_none hy⟩

/-- **C172, what else is nested.** A file with a `Process` within another one, or with a `ProcessInstance` within another one, is refused. -/
theorem c172_nested {rnd : Nat → Uuid} {P : Protos} {h : Heap F} {x : MNode} {ws tx : Str → Str} {s : List MSax} (hs : Reads ws tx x s)
    {refs : List Ref} {h' : Heap F} (hr : mobParse rnd P h s = .ok (refs, h')) : x.flat py!"Process" ∧ x.flat py!"ProcessInstance" := by
  obtain ⟨st, hr', _⟩ := bind_ok.1 hr
  obtain ⟨a, b⟩ := mobRun_stops hr' (init_flags h)
  exact ⟨((tagFacts py!"Process" hs).stops false).1 b, ((tagFacts py!"ProcessInstance" hs).stops false).1 a⟩

/-- **C172, exactly.** If a file is loaded, then some log of the result has a trace with `None` among its events if and only if some
`AuditTrailEntry` lies within another one. -/
theorem c172_exact {rnd : Nat → Uuid} {P : Protos} {h : Heap F} (hP : MxmlProtos h P) {x : MNode} {ws tx : Str → Str} {s : List MSax}
    (hs : Reads ws tx x s) {refs : List Ref} {h' : Heap F} (hr : mobParse rnd P h s = .ok (refs, h')) :
    (∃ l ∈ refs, LogHoldsNone h' l) ↔ ¬ x.flat py!"AuditTrailEntry" := by
  constructor
  · rintro ⟨l, hl, hn⟩ hx
    exact (c172_partial hP hx hs hr).2 l hl hn
  · intro hx
    obtain ⟨h1, h2⟩ := c172_nested hs hr
    obtain ⟨st, hr', q⟩ := bind_ok.1 hr
    cases q
    obtain ⟨f, n⟩ := mobRun_flags hr' (init_flags h)
    have fi := (tagFacts py!"ProcessInstance" hs)
    have fp := (tagFacts py!"Process" hs)
    have := n (fi.starts h2) (fp.starts h1) (.inr fun q => hx (((tagFacts py!"AuditTrailEntry" hs).stops false).1 q))
    have f1 := f.inst
    have f2 := f.process
    rw [fi.falseFlag] at f1
    rw [fp.falseFlag] at f2
    rcases this with q | ⟨l, q, _⟩ | ⟨l, q, _⟩
    · exact q
    · rw [q] at f2; cases f2
    · rw [q] at f1; cases f1

theorem mxmlRun_stops {rnd : Nat → Uuid} : ∀ {file : List MSax} {st : MxmlSt F}, mxmlRun rnd st file = .error .other →
    ∃ pre post s, file = pre ++ .stop py!"AuditTrailEntry" :: post ∧ mxmlRun rnd st pre = .ok s ∧ s.entry = none
  | [], _, hr => by cases hr
  | e :: es, st, hr => by
    simp only [mxmlRun] at hr
    rcases bind_error hr with h1 | ⟨s, h1, h2⟩
    · obtain ⟨rfl, h2⟩ := mxmlStep_other h1
      exact ⟨[], es, st, rfl, rfl, h2⟩
    · obtain ⟨pre, post, s', rfl, h3, h4⟩ := mxmlRun_stops h2
      exact ⟨e :: pre, post, s', rfl, by simp only [mxmlRun]; exact bind_ok.2 ⟨s, h1, h3⟩, h4⟩

/-- **C170.** The exception of `c170_refused`: only where an entry ends and no entry is open does the model with values stop though the
parser may go on (with `None` in the trace; C172 is about these files). -/
theorem c170_unmodelled {rnd : Nat → Uuid} {file : List MSax} (hr : (mxmlParse rnd file : Except PyErr (List (Log F))) = .error .other) :
    ∃ pre post, ∃ s : MxmlSt F, file = pre ++ .stop py!"AuditTrailEntry" :: post ∧ mxmlRun rnd (.init F) pre = .ok s ∧ s.entry = none := by
  unfold mxmlParse at hr
  rcases bind_error hr with h | ⟨_, _, h⟩
  · exact mxmlRun_stops h
  · cases h

/-- Such a file: an entry within an entry. -/
example : (match (mxmlParse (fun _ => 7) (MNode.elem py!"Process" [] [.elem py!"ProcessInstance" [] [.elem py!"AuditTrailEntry" [] [
    .elem py!"AuditTrailEntry" [] []]]]).say : Except PyErr (List (Log ToyFloat))) with
    | .error .other => true
    | _ => false) = true := by decide +kernel

/-- **C172.** Such a log cannot be cloned. -/
theorem c172_useless (rnd : Nat → Uuid) {h : Heap F} {l : Ref} (hl : LogHoldsNone h l) : ∃ e, cloneLog rnd h l = .error e := c168_clone rnd hl

end

/-! ## Examples -/

/-- An entry within an entry. -/
def nestedEntries : MNode :=
  .elem py!"WorkflowLog" [] [.elem py!"Process" [(py!"id", py!"P")] [.elem py!"ProcessInstance" [(py!"id", py!"1")] [
    .elem py!"AuditTrailEntry" [] [.elem py!"AuditTrailEntry" [] [.elem py!"WorkflowModelElement" [] [.text py!"a"]]]]]]

/-- What the members of the traces of the logs are, and whether the first log can be cloned. -/
def mobShape (x : MNode) : Option (List (List (Option (List Bool))) × Option PyErr) :=
  match mobParse (fun _ => 7) exProtos (exKept ToyFloat) x.say with
  | .ok (ls, h) => some (ls.map (logShape h), match ls with
    | l :: _ => match cloneLog (fun _ => 7) h l with
      | .ok _ => none
      | .error e => some e
    | [] => none)
  | .error _ => none

/-- **C172, refuted.** -/
theorem c172_refuted : mobShape nestedEntries = some ([[some [true, false]]], some .attributeError) := by decide +kernel

example : mobShape c170Doc = some ([[some [true]], []], none) := by decide +kernel

example : c170Doc.flat py!"AuditTrailEntry" ∧ ¬ nestedEntries.flat py!"AuditTrailEntry" := by
  simp [MNode.flat, MNode.flatAll, MNode.hasAny, MNode.has, c170Doc, nestedEntries]

/-- `c172_partial`, `c172_exact` and `c172_nested` apply to the events of these documents. -/
example (x : MNode) : Reads id id x x.say := say_reads x

/-- Nested instances are refused. -/
example : mobShape (.elem py!"Process" [] [.elem py!"ProcessInstance" [] [.elem py!"ProcessInstance" [] []]]) = none := by decide +kernel

end Opy
