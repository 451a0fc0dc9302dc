import Verif.Props.MxmlRead
import Verif.Lemmas.Lower
import Verif.Props.Attr
set_option linter.unusedSectionVars false
namespace Opy

/-! ## Spec: what saving and loading makes of a log -/

/-- Printable ASCII text comes through unchanged. -/
def PlainFixed (f : Str → Str) : Prop := ∀ s : Str, (∀ c ∈ s, 32 ≤ c.toNat ∧ c.toNat ≤ 126) → f s = s

section
variable {F : Type} [PyFloat F]

/-- The string stored under a key, if there is one. -/
def textAt (key : Str) (m : AttrMap F) : Option Str :=
  match dget key m with
  | some a => match getValue a with
    | .ok (.str s) => some s
    | _ => none
  | none => none

/-- A string attribute. -/
def lit (key : Str) (ext : Option Ext) (v : Str) (nested : AttrMap F) : Str × Attr F := (key, .mk .literal key ext (.str v) nested [])

/-- The model reference that comes back. -/
def refBack (ws : Str → Str) (m : AttrMap F) : AttrMap F :=
  match textAt py!"semantic:modelReference" m with
  | some s => if ws s = [] then [] else [lit py!"semantic:modelReference" (some semanticExt) (ws s) []]
  | none => []

/-- The name attribute; blank names are not stored. -/
def nameBack (n : Str) : AttrMap F := if strip n = [] then [] else [lit py!"concept:name" (some conceptExt) n []]

/-- The transition that comes back: `complete` if there was none, the text in lower case if it is one of
the twelve known types, otherwise `unknown`. -/
def transitionBack (m : AttrMap F) : Str :=
  match textAt py!"lifecycle:transition" m with
  | none => py!"complete"
  | some v => if pyLower (strip v) ∈ [py!"schedule", py!"assign", py!"withdraw", py!"reassign", py!"start", py!"suspend",
      py!"resume", py!"pi_abort", py!"ate_abort", py!"complete", py!"autoskip", py!"manualskip"] then pyLower (strip v)
      else py!"unknown"

/-- The model reference of the transition. -/
def typeRefBack (ws : Str → Str) (m : AttrMap F) : AttrMap F :=
  match dget py!"lifecycle:transition" m with
  | some a => refBack ws a.attrs
  | none => []

/-- The attributes of an event after saving and loading. -/
def eventBack (ws tx : Str → Str) (m : AttrMap F) : AttrMap F :=
  refBack ws m ++
  nameBack (((textAt py!"concept:name" m).map fun n => strip (tx n)).getD []) ++
  [lit py!"lifecycle:transition" (some lifecycleExt) (transitionBack m) (typeRefBack ws m)]

/-- The attributes of a trace after saving and loading. -/
def traceBack (ws : Str → Str) (m : AttrMap F) : AttrMap F :=
  let name := (textAt py!"concept:name" m).getD py!"None"
  nameBack (ws name) ++
  (if strip (ws (py!"instance with id " ++ name)) = [] then []
   else [lit py!"description" none (ws (py!"instance with id " ++ name)) []]) ++
  refBack ws m

/-- The attributes of a log after saving and loading. -/
def logBack (ws : Str → Str) (m : AttrMap F) : AttrMap F :=
  let name := textAt py!"concept:name" m
  let desc := ws (py!"process with id " ++ name.getD py!"None")
  lit py!"source" none py!"XES MXML serialization" [] ::
  (nameBack (ws (name.getD py!"none")) ++
  [lit py!"lifecycle:model" (some lifecycleExt) py!"standard" []] ++
  (if desc = [] then [] else [lit py!"description" none desc []]) ++
  refBack ws m)

/-! ## Reading back -/

def xa (ws : Str → Str) (as : List (Str × Str)) : List (Str × Str) := as.map fun p => (p.1, ws p.2)

def Blank (b : List Str) : Prop := ∀ c ∈ join [] b, isSpace c = true

theorem blank_nil : Blank [] := by intro c hc; simp [join] at hc

theorem blank_append {a b : List Str} (ha : Blank a) (hb : Blank b) : Blank (a ++ b) := by
  intro c hc
  rw [join_nil_append, List.mem_append] at hc
  exact hc.elim (ha c) (hb c)

theorem run_gap (rnd : Nat → Uuid) : ∀ (g : List MSax), Gap g → ∀ (st : MxmlSt F),
    ∃ b, mxmlRun rnd st g = .ok (setBuf (st.buffer ++ b) st) ∧ Blank b
  | [], _, st => ⟨[], by simp [mxmlRun, setBuf], blank_nil⟩
  | e :: g, hg, st => by
    obtain ⟨w, rfl, hw⟩ := hg e (List.mem_cons_self ..)
    obtain ⟨b, h1, h2⟩ := run_gap rnd g (fun e he => hg e (List.mem_cons_of_mem _ he)) { st with buffer := st.buffer ++ [w] }
    refine ⟨[w] ++ b, ?_, ?_⟩
    · simp only [mxmlRun, mxmlStep, bind, Except.bind, h1]
      simp [setBuf]
    · exact blank_append (by intro c hc; exact hw c (by simpa [join] using hc)) h2

theorem run_chunks (rnd : Nat → Uuid) : ∀ (cs : List Str) (st : MxmlSt F),
    mxmlRun rnd st (cs.map .chars) = .ok (setBuf (st.buffer ++ cs) st)
  | [], st => by simp [mxmlRun, setBuf]
  | c :: cs, st => by
    simp only [List.map_cons, mxmlRun, mxmlStep, bind, Except.bind]
    rw [run_chunks rnd cs]
    simp [setBuf]

theorem join_nil_flatten : ∀ l : List Str, join [] l = l.flatten
  | [] => rfl
  | [a] => by simp [join]
  | a :: b :: r => by
    simp only [join, List.append_nil, List.flatten_cons]
    rw [join_nil_flatten (b :: r)]
    simp

/-- The content of an element that holds at most a text. -/
theorem run_text (rnd : Nat → Uuid) {ws tx : Str → Str} (htx : PlainFixed tx) {x : Str} {s : List MSax}
    (hr : ReadsAll ws tx (if x = [] then [] else [.text x]) s) (st : MxmlSt F) (hb : Blank st.buffer) :
    ∃ b, mxmlRun rnd st s = .ok (setBuf b st) ∧ strip (join [] b) = strip (tx x) := by
  split at hr
  · rename_i hx
    cases hr with
    | nil hg =>
      obtain ⟨b, h1, h2⟩ := run_gap rnd _ hg st
      refine ⟨_, h1, ?_⟩
      rw [strip_all_space (blank_append hb h2), hx, htx [] (by simp)]
      rfl
  · cases hr with
    | cons hg hn hns =>
      obtain ⟨b, h1, h2⟩ := run_gap rnd _ hg st
      cases hn with
      | text hc =>
        rename_i chunks
        cases hns with
        | nil hg' =>
          obtain ⟨b', h3, h4⟩ := run_gap rnd _ hg' (setBuf (st.buffer ++ b ++ chunks) st)
          refine ⟨st.buffer ++ b ++ chunks ++ b', ?_, ?_⟩
          · simp only [mxmlRun_append, h1, Except.bind, run_chunks]
            exact h3
          · rw [join_nil_append, join_nil_append, join_nil_flatten chunks, hc]
            exact strip_space_append_space (blank_append hb h2) h4

/-- Tags the handler does nothing with. -/
def ignoredTag (t : Str) : Bool := t == py!"Data" || t == py!"attribute" || t == py!"originator" || t == py!"timestamp"

theorem step_ignored (rnd : Nat → Uuid) {t : Str} (ht : ignoredTag t = true) (st : MxmlSt F) :
    (∀ as, mxmlStart rnd st t as = .ok st) ∧ mxmlStop st t = .ok (setBuf [] st) := by
  simp only [ignoredTag, Bool.or_eq_true, beq_iff_eq] at ht
  rcases ht with ((rfl | rfl) | rfl) | rfl <;> constructor <;> first
    | (intro as; simp [mxmlStart])
    | (simp [mxmlStop, mxmlStopBody, setBuf, bind, Except.bind])

mutual
def MNode.ignored : MNode → Bool
  | .elem t _ ks => ignoredTag t && ignoredAll ks
  | .text _ => true
def ignoredAll : List MNode → Bool
  | [] => true
  | n :: ns => n.ignored && ignoredAll ns
end

mutual
theorem run_ignored (rnd : Nat → Uuid) {ws tx : Str → Str} : ∀ {n : MNode} {s : List MSax}, Reads ws tx n s → n.ignored = true →
    ∀ (st : MxmlSt F), ∃ b, mxmlRun rnd st s = .ok (setBuf b st) ∧ ((∃ t as ks, n = .elem t as ks) → b = [])
  | _, _, .text _, _, st => ⟨_, run_chunks rnd _ st, by rintro ⟨_, _, _, h⟩; simp at h⟩
  | _, _, .elem (t := t) hk, hi, st => by
    simp only [MNode.ignored, Bool.and_eq_true] at hi
    obtain ⟨b, h⟩ := run_ignoredAll rnd hk hi.2 st
    refine ⟨[], ?_, fun _ => rfl⟩
    simp only [mxmlRun, mxmlStep, (step_ignored rnd hi.1 st).1, bind, Except.bind, mxmlRun_append, h,
      (step_ignored rnd hi.1 (setBuf b st)).2]
    rfl
theorem run_ignoredAll (rnd : Nat → Uuid) {ws tx : Str → Str} : ∀ {ns : List MNode} {s : List MSax}, ReadsAll ws tx ns s →
    ignoredAll ns = true → ∀ (st : MxmlSt F), ∃ b, mxmlRun rnd st s = .ok (setBuf b st)
  | _, _, .nil hg, _, st => by
    obtain ⟨b, h, _⟩ := run_gap rnd _ hg st
    exact ⟨_, h⟩
  | _, _, .cons hg hn hns, hi, st => by
    simp only [ignoredAll, Bool.and_eq_true] at hi
    obtain ⟨b, h1, _⟩ := run_gap rnd _ hg st
    obtain ⟨b', h2, _⟩ := run_ignored rnd hn hi.1 (setBuf (st.buffer ++ b) st)
    obtain ⟨b'', h3⟩ := run_ignoredAll rnd hns hi.2 (setBuf b' (setBuf (st.buffer ++ b) st))
    refine ⟨b'', ?_⟩
    simp only [mxmlRun_append, h1, Except.bind, h2, h3]
    rfl
end

/-- Ignored elements and layout, with a blank buffer before and after. -/
theorem run_skip (rnd : Nat → Uuid) {ws tx : Str → Str} : ∀ {ns : List MNode} {s : List MSax}, ReadsAll ws tx ns s →
    (∀ n ∈ ns, n.ignored = true ∧ ∃ t as ks, n = .elem t as ks) → ∀ (st : MxmlSt F), Blank st.buffer →
    ∃ b, mxmlRun rnd st s = .ok (setBuf b st) ∧ Blank b
  | _, _, .nil hg, _, st, hb => by
    obtain ⟨b, h, h'⟩ := run_gap rnd _ hg st
    exact ⟨_, h, blank_append hb h'⟩
  | _, _, .cons (n := n) hg hn hns, hi, st, hb => by
    obtain ⟨b, h1, _⟩ := run_gap rnd _ hg st
    obtain ⟨hn1, hn2⟩ := hi n (List.mem_cons_self ..)
    obtain ⟨b', h2, hb'⟩ := run_ignored rnd hn hn1 (setBuf (st.buffer ++ b) st)
    have hb'' := hb' hn2
    subst hb''
    obtain ⟨b'', h3, h4⟩ := run_skip rnd hns (fun n hn => hi n (List.mem_cons_of_mem _ hn)) (setBuf [] (setBuf (st.buffer ++ b) st))
      blank_nil
    refine ⟨b'', ?_, h4⟩
    simp only [mxmlRun_append, h1, Except.bind, h2, h3]
    rfl

/-! ## The pieces of the serializer -/

theorem textAt_of {key : Str} {m : AttrMap F} {a : Attr F} {s : Str} (h : dget key m = some a) (hv : getValue a = .ok (.str s)) :
    textAt key m = some s := by simp only [textAt, h, hv]

theorem refAttr_ok {m : AttrMap F} {r : List (Str × Str)} (h : refAttr m = .ok r) :
    (textAt py!"semantic:modelReference" m = none ∧ r = []) ∨
    ∃ s, textAt py!"semantic:modelReference" m = some s ∧ r = [(py!"modelReference", s)] := by
  unfold refAttr at h
  split at h
  · rename_i hd
    simp only [Except.ok.injEq] at h
    exact .inl ⟨by simp only [textAt, hd], h.symm⟩
  · rename_i a hd
    obtain ⟨v, hv, h⟩ := bind_ok.1 h
    obtain ⟨s, hs, h⟩ := bind_ok.1 h
    simp only [Except.ok.injEq] at h
    cases v <;> simp only [xmlStr, Except.ok.injEq, reduceCtorEq] at hs
    subst hs
    exact .inr ⟨_, textAt_of hd hv, h.symm⟩

theorem dget_xa (ws : Str → Str) (k : Str) (as : List (Str × Str)) : dget k (xa ws as) = (dget k as).map ws := by
  induction as with
  | nil => rfl
  | cons p r ih =>
    obtain ⟨k', v⟩ := p
    simp only [xa, List.map_cons, dget] at ih ⊢
    split
    · rfl
    · exact ih

/-- Adding the model reference of a written element. -/
theorem addRef_back {ws : Str → Str} {m : AttrMap F} {r : List (Str × Str)} (h : refAttr m = .ok r) {as : List (Str × Str)}
    (has : dget py!"modelReference" as = dget py!"modelReference" r) (m0 : AttrMap F) (hm0 : py!"semantic:modelReference" ∉ dkeys m0) :
    addRef (xa ws as) m0 = m0 ++ refBack ws m := by
  unfold addRef modelRef refBack
  rw [dget_xa, has]
  rcases refAttr_ok h with ⟨h1, rfl⟩ | ⟨s, h1, rfl⟩
  · simp [h1, dget]
  · simp only [h1, dget, if_true, Option.map_some]
    by_cases hw : ws s = []
    · simp [hw]
    · simp only [hw, if_false]
      rw [dset_eq_append _ hm0]
      rfl

theorem typeXml_ok {ws : Str → Str} {m : AttrMap F} {x : MNode} (h : typeXml m = .ok x) :
    ∃ as v, x = .elem py!"EventType" as [.text v] ∧ v = transitionBack m ∧ strip v = v ∧ v ≠ [] ∧
      (∀ c ∈ v, 32 ≤ c.toNat ∧ c.toNat ≤ 126) ∧ dget py!"unknowntype" as = none ∧ addRef (xa ws as) [] = typeRefBack ws m := by
  unfold typeXml at h
  split at h
  · rename_i hd
    simp only [Except.ok.injEq] at h
    refine ⟨[], py!"complete", h.symm, by simp [transitionBack, textAt, hd], by decide, by decide, by decide, rfl, ?_⟩
    simp [addRef, modelRef, xa, typeRefBack, hd]
  · rename_i a hd
    obtain ⟨r, hr, h⟩ := bind_ok.1 h
    obtain ⟨v, hv, h⟩ := bind_ok.1 h
    have hun : dget py!"unknowntype" r = none := by
      rcases refAttr_ok hr with ⟨_, rfl⟩ | ⟨s, _, rfl⟩
      · rfl
      · simp [dget]
    cases v <;> simp only [reduceCtorEq] at h
    rename_i v
    have ht := textAt_of hd hv
    split at h
    · rename_i hk
      simp only [Except.ok.injEq] at h
      have hall : ∀ w ∈ mxmlKnownTypes, strip w = w ∧ w ≠ [] ∧ ∀ c ∈ w, 32 ≤ c.toNat ∧ c.toNat ≤ 126 := by decide
      obtain ⟨h1, h2, h3⟩ := hall _ hk
      refine ⟨r, _, h.symm, ?_, h1, h2, h3, hun, ?_⟩
      · unfold transitionBack
        rw [ht]
        exact (if_pos hk).symm
      · rw [addRef_back hr rfl [] (by simp [dkeys])]
        simp [typeRefBack, hd]
    · rename_i hk
      simp only [Except.ok.injEq] at h
      refine ⟨_, _, h.symm, ?_, by decide, by decide, by decide, ?_, ?_⟩
      · unfold transitionBack
        rw [ht]
        exact (if_neg hk).symm
      · rcases refAttr_ok hr with ⟨_, rfl⟩ | ⟨s, _, rfl⟩ <;> simp [dget]
      · rw [addRef_back hr _ [] (by simp [dkeys])]
        · simp [typeRefBack, hd]
        · rcases refAttr_ok hr with ⟨_, rfl⟩ | ⟨s, _, rfl⟩ <;> simp [dget]

theorem dataKids_ignored : ∀ {m : List (Str × Attr F)} {ks : List MNode}, dataKids m = .ok ks → ignoredAll ks = true
  | [], ks, h => by simp only [dataKids, Except.ok.injEq] at h; subst h; rfl
  | (k, a) :: m, ks, h => by
    simp only [dataKids] at h
    split at h
    · obtain ⟨r, _, h⟩ := bind_ok.1 h
      obtain ⟨t, _, h⟩ := bind_ok.1 h
      split at h
      · simp at h
      · obtain ⟨ks', hk, h⟩ := bind_ok.1 h
        simp only [Except.ok.injEq] at h
        subst h
        simp only [ignoredAll, MNode.ignored, dataKids_ignored hk, Bool.and_true]
        split <;> simp [ignoredAll, MNode.ignored, ignoredTag]
    · exact dataKids_ignored h

theorem dataXml_skip {m : AttrMap F} {x : MNode} (h : dataXml m = .ok x) :
    x.ignored = true ∧ ∃ t as ks, x = .elem t as ks := by
  obtain ⟨ks, hk, h⟩ := bind_ok.1 h
  simp only [Except.ok.injEq] at h
  subst h
  exact ⟨by simp [MNode.ignored, dataKids_ignored hk, ignoredTag], _, _, _, rfl⟩

theorem xmlText_ok {v : PyVal F} {ks : List MNode} (h : xmlText v = .ok ks) :
    ∃ t, ks = (if t = [] then [] else [.text t]) ∧ (v = .none ∧ t = [] ∨ v = .str t) := by
  cases v <;> simp only [xmlText, Except.ok.injEq, reduceCtorEq] at h
  · exact ⟨[], by simp [← h], .inl ⟨rfl, rfl⟩⟩
  · exact ⟨_, h.symm, .inr rfl⟩

theorem originator_skip {m : AttrMap F} {xs : List MNode} (h : originatorXml m = .ok xs) :
    ∀ n ∈ xs, n.ignored = true ∧ ∃ t as ks, n = .elem t as ks := by
  unfold originatorXml at h
  split at h
  · simp only [Except.ok.injEq] at h; subst h; simp
  · obtain ⟨r, _, h⟩ := bind_ok.1 h
    obtain ⟨v, _, h⟩ := bind_ok.1 h
    obtain ⟨ks, hks, h⟩ := bind_ok.1 h
    simp only [Except.ok.injEq] at h
    subst h
    obtain ⟨t, rfl, _⟩ := xmlText_ok hks
    intro n hn
    simp only [List.mem_singleton] at hn
    subst hn
    refine ⟨?_, _, _, _, rfl⟩
    simp only [MNode.ignored]
    split <;> simp [ignoredAll, MNode.ignored, ignoredTag]

theorem timestamp_skip {m : AttrMap F} {xs : List MNode} (h : timestampXml m = .ok xs) :
    ∀ n ∈ xs, n.ignored = true ∧ ∃ t as ks, n = .elem t as ks := by
  unfold timestampXml at h
  split at h
  · simp only [Except.ok.injEq] at h; subst h; simp
  · obtain ⟨r, _, h⟩ := bind_ok.1 h
    obtain ⟨v, _, h⟩ := bind_ok.1 h
    simp only [Except.ok.injEq] at h
    subst h
    intro n hn
    simp only [List.mem_singleton] at hn
    subst hn
    exact ⟨by simp [MNode.ignored, ignoredAll, ignoredTag], _, _, _, rfl⟩

end
section
variable {F : Type} [PyFloat F]

/-- Reading an element: its start, its content from a state with the buffer as it was, its end. -/
theorem run_elem {rnd : Nat → Uuid} {ws tx : Str → Str} {t : Str} {as : List (Str × Str)} {ks : List MNode} {s : List MSax}
    (hr : Reads ws tx (.elem t as ks) s) :
    ∃ s', ReadsAll ws tx ks s' ∧ ∀ (st : MxmlSt F), mxmlRun rnd st s =
      (mxmlStart rnd st t (xa ws as)).bind fun s1 => (mxmlRun rnd s1 s').bind fun s2 => mxmlStop s2 t := by
  cases hr with
  | elem hk =>
    refine ⟨_, hk, fun st => ?_⟩
    simp only [mxmlRun, mxmlStep, bind]
    change (mxmlStart rnd st t (xa ws as)).bind _ = _
    cases mxmlStart rnd st t (xa ws as) with
    | error e => rfl
    | ok s1 =>
      simp only [Except.bind, mxmlRun_append]
      cases mxmlRun rnd s1 _ with
      | error e => rfl
      | ok s2 =>
        simp only [mxmlRun, mxmlStep, bind, Except.bind]
        cases mxmlStop s2 t <;> rfl

/-- The state while the content of an entry is read. -/
def entrySt (st : MxmlSt F) (b : List Str) (n : Nat) (e : Event F) : MxmlSt F :=
  { st with buffer := b, drawn := n, entry := some e }

/-- Nothing left over from earlier elements. -/
structure Fresh (st : MxmlSt F) : Prop where
  entry : st.entry = none
  eventType : st.eventType = none
  timestamp : st.timestamp = none

theorem given_strip (s : Str) : given (some s) = !decide (strip s = []) := by
  cases h : strip s <;> simp [given, h]

theorem assignName_back (n : Str) (m : AttrMap F) (h : py!"concept:name" ∉ dkeys m) : assignName (some n) m = m ++ nameBack n := by
  unfold assignName nameBack
  simp only [given_strip]
  by_cases hs : strip n = []
  · simp [hs]
  · simp only [hs, decide_false, Bool.not_false, if_true, if_false]
    rw [dset_eq_append _ h]
    rfl

theorem refBack_keys (ws : Str → Str) (m : AttrMap F) : ∀ k ∈ dkeys (refBack ws m), k = py!"semantic:modelReference" := by
  unfold refBack
  split
  · split <;> simp [dkeys, lit]
  · simp [dkeys]

theorem nameBack_keys (n : Str) : ∀ k ∈ dkeys (nameBack (F := F) n), k = py!"concept:name" := by
  unfold nameBack
  split <;> simp [dkeys, lit]

theorem dkeys_append (a b : AttrMap F) : dkeys (a ++ b) = dkeys a ++ dkeys b := by simp [dkeys]

/-- `WorkflowModelElement`. -/
theorem run_name {rnd : Nat → Uuid} {ws tx : Str → Str} (htx : PlainFixed tx) {m : AttrMap F} {r : List (Str × Str)}
    (hr : refAttr m = .ok r) {x : Str} {s : List MSax}
    (hs : Reads ws tx (.elem py!"WorkflowModelElement" r (if x = [] then [] else [.text x])) s)
    (st : MxmlSt F) (b : List Str) (hb : Blank b) (n : Nat) (id : Uuid) :
    mxmlRun rnd (entrySt st b n ⟨id, []⟩) s =
      .ok (entrySt st [] n ⟨id, refBack ws m ++ nameBack (strip (tx x))⟩) := by
  obtain ⟨s', hk, hrun⟩ := run_elem (F := F) (rnd := rnd) hs
  have h1 : mxmlStart rnd (entrySt st b n ⟨id, []⟩) py!"WorkflowModelElement" (xa ws r) =
      .ok (entrySt st b n ⟨id, refBack ws m⟩) := by
    have := addRef_back (ws := ws) hr (as := r) rfl [] (by simp [dkeys])
    have h2 : mxmlStart rnd (entrySt st b n ⟨id, []⟩) py!"WorkflowModelElement" (xa ws r) =
      startElementName (entrySt st b n ⟨id, []⟩) (xa ws r) := by simp [mxmlStart]
    rw [h2]
    unfold startElementName
    cases hm : modelRef (xa ws r) with
    | none =>
      simp only [addRef, hm, List.nil_append] at this
      rw [← this]
    | some v =>
      simp only [List.nil_append] at this
      simp only [entrySt, this]
  obtain ⟨b', h2, h3⟩ := run_text rnd htx hk (entrySt st b n ⟨id, refBack ws m⟩) hb
  rw [hrun, h1]
  simp only [Except.bind, h2]
  have h4 : mxmlStopBody (setBuf b' (entrySt st b n ⟨id, refBack ws m⟩)) py!"WorkflowModelElement" =
      stopElementName (setBuf b' (entrySt st b n ⟨id, refBack ws m⟩)) := by simp [mxmlStopBody]
  have h5 : bufText (setBuf b' (entrySt st b n ⟨id, refBack ws m⟩)) = strip (tx x) := h3
  have h6 := assignName_back (strip (tx x)) (refBack ws m) (by
    intro hk
    have := refBack_keys ws m _ hk
    simp at this)
  simp only [mxmlStop, h4, stopElementName, h5]
  by_cases hg : given (some (strip (tx x))) = true
  · rw [if_pos hg]
    simp only [setBuf, entrySt, bind, Except.bind, h6]
  · rw [if_neg hg]
    have : nameBack (F := F) (strip (tx x)) = [] := by
      unfold nameBack
      rw [given_strip] at hg
      simp at hg
      simp [hg]
    rw [this, List.append_nil]
    rfl

theorem stopEventType_text {st : MxmlSt F} {k : Kind} {key : Str} {x : Option Ext} {nested : AttrMap F} {e : Event F} {v : Str}
    (h1 : st.eventType = some (.mk k key x (.str py!"UNKNOWN") nested [])) (h2 : st.entry = some e) (h3 : bufText st = v) (h4 : v ≠ []) :
    stopEventType st = .ok { st with
      entry := some { e with attrs := dset key (.mk k key x (.str v) nested []) e.attrs }, eventType := none } := by
  have hlen : 0 < v.length := List.length_pos_iff.2 h4
  have hpe : pyEq (F := F) (.str py!"UNKNOWN") (.str py!"UNKNOWN") = true := by simp [pyEq]
  unfold stopEventType
  rw [h1]
  simp only [Attr.val, hpe, if_true, h3, hlen, intoEntry, h2, withVal, Attr.key, bind, Except.bind]

/-- `EventType`. -/
theorem run_type {rnd : Nat → Uuid} {ws tx : Str → Str} (htx : PlainFixed tx) {m : AttrMap F} {x : MNode}
    (hx : typeXml m = .ok x) {s : List MSax} (hs : Reads ws tx x s)
    (st : MxmlSt F) (hst : st.eventType = none) (b : List Str) (hb : Blank b) (n : Nat) (e : Event F)
    (hk : py!"lifecycle:transition" ∉ dkeys e.attrs) :
    mxmlRun rnd (entrySt st b n e) s =
      .ok (entrySt st [] n ⟨e.id, e.attrs ++ [lit py!"lifecycle:transition" (some lifecycleExt) (transitionBack m) (typeRefBack ws m)]⟩) := by
  obtain ⟨as, v, rfl, hv, hv1, hv2, hv3, hun, href⟩ := typeXml_ok (ws := ws) hx
  obtain ⟨s', hk', hrun⟩ := run_elem (F := F) (rnd := rnd) hs
  have h1 : mxmlStart rnd (entrySt st b n e) py!"EventType" (xa ws as) =
      .ok { entrySt st b n e with eventType := some (.mk .literal py!"lifecycle:transition" (some lifecycleExt) (.str py!"UNKNOWN") (typeRefBack ws m) []) } := by
    have h2 : mxmlStart rnd (entrySt st b n e) py!"EventType" (xa ws as) = .ok (startEventType (entrySt st b n e) (xa ws as)) := by
      simp [mxmlStart]
    rw [h2]
    simp only [startEventType, dget_xa, hun, Option.map_none, href]
  have hk2 : ReadsAll ws tx (if v = [] then [] else [.text v]) s' := by simpa [hv2] using hk'
  rw [hrun, h1]
  simp only [Except.bind]
  obtain ⟨b', h2, h3⟩ := run_text rnd htx hk2 { entrySt st b n e with eventType := some (.mk .literal py!"lifecycle:transition" (some lifecycleExt) (.str py!"UNKNOWN") (typeRefBack ws m) []) } hb
  rw [h2]
  simp only
  rw [htx v hv3, hv1] at h3
  have h4 : ∀ st', mxmlStopBody (F := F) st' py!"EventType" = stopEventType st' := by intro st'; simp [mxmlStopBody]
  have h5 : bufText (setBuf b' { entrySt st b n e with eventType := some (.mk .literal py!"lifecycle:transition" (some lifecycleExt) (.str py!"UNKNOWN") (typeRefBack ws m) []) }) = v := h3
  simp only [mxmlStop, h4]
  rw [stopEventType_text (e := e) (v := v) rfl rfl h5 hv2]
  simp only [bind, Except.bind, setBuf, entrySt]
  rw [dset_eq_append _ hk, ← hst, ← hv]
  rfl

theorem entryXml_ok {e : Event F} {x : MNode} (h : entryXml e = .ok x) :
    ∃ d r n t ot, dataXml e.attrs = .ok d ∧ refAttr e.attrs = .ok r ∧ typeXml e.attrs = .ok t ∧
      (n = (textAt py!"concept:name" e.attrs).getD []) ∧
      (∀ n ∈ ot, n.ignored = true ∧ ∃ t as ks, n = .elem t as ks) ∧
      x = .elem py!"AuditTrailEntry" [] ([d, .elem py!"WorkflowModelElement" r (if n = [] then [] else [.text n]), t] ++ ot) := by
  obtain ⟨d, hd, h⟩ := bind_ok.1 h
  obtain ⟨r, hr, h⟩ := bind_ok.1 h
  obtain ⟨v, hv, h⟩ := bind_ok.1 h
  obtain ⟨n, hn, h⟩ := bind_ok.1 h
  obtain ⟨t, ht, h⟩ := bind_ok.1 h
  obtain ⟨o, ho, h⟩ := bind_ok.1 h
  obtain ⟨ts, hts, h⟩ := bind_ok.1 h
  simp only [Except.ok.injEq] at h
  obtain ⟨w, rfl, hw⟩ := xmlText_ok hn
  refine ⟨d, r, w, t, o ++ ts, hd, hr, ht, ?_, ?_, ?_⟩
  · unfold extractName extractOr at hv
    split at hv
    · rename_i a ha
      rcases hw with ⟨rfl, rfl⟩ | rfl
      · simp [textAt, ha, hv]
      · rw [textAt_of ha hv]; rfl
    · rename_i ha
      simp only [Except.ok.injEq] at hv
      subst hv
      rcases hw with ⟨_, rfl⟩ | h'
      · simp [textAt, ha]
      · simp at h'
  · intro n hn
    rcases List.mem_append.1 hn with hn | hn
    · exact originator_skip ho n hn
    · exact timestamp_skip hts n hn
  · rw [← h]; simp

/-- One entry. -/
theorem run_entry {rnd : Nat → Uuid} {ws tx : Str → Str} (htx : PlainFixed tx) {ev : Event F} {x : MNode}
    (hx : entryXml ev = .ok x) {s : List MSax} (hs : Reads ws tx x s) (st : MxmlSt F) (hf : Fresh st) (hb : Blank st.buffer)
    (t : Trace F) (ht : st.inst = some t) :
    mxmlRun rnd st s = .ok { st with
      buffer := [], drawn := st.drawn + 1,
      inst := some { t with events := t.events ++ [⟨rnd st.drawn, eventBack ws tx ev.attrs⟩] } } := by
  obtain ⟨d, r, n, ty, ot, hd, hr, hty, hn, hot, rfl⟩ := entryXml_ok hx
  obtain ⟨s', hk, hrun⟩ := run_elem (F := F) (rnd := rnd) hs
  have h1 : mxmlStart rnd st py!"AuditTrailEntry" (xa ws []) = .ok (entrySt st st.buffer (st.drawn + 1) ⟨rnd st.drawn, []⟩) := by
    simp [mxmlStart, startEntry, entrySt]
  rw [hrun, h1]
  simp only [Except.bind]
  simp only [List.cons_append, List.nil_append] at hk
  cases hk with
  | cons g1 k1 hk =>
  cases hk with
  | cons g2 k2 hk =>
  cases hk with
  | cons g3 k3 hk =>
  -- data
  have hdata := run_skip rnd (ReadsAll.cons g1 k1 (ReadsAll.nil (ws := ws) (tx := tx) (g := []) (by intro e he; simp at he)))
    (by simpa using dataXml_skip hd) (entrySt st st.buffer (st.drawn + 1) ⟨rnd st.drawn, []⟩) hb
  obtain ⟨b1, h2, hb1⟩ := hdata
  simp only [List.append_nil] at h2
  rw [← List.append_assoc, mxmlRun_append, h2]
  simp only [Except.bind]
  -- name
  obtain ⟨b2, h3, hb2⟩ := run_gap rnd _ g2 (setBuf b1 (entrySt st st.buffer (st.drawn + 1) ⟨rnd st.drawn, []⟩))
  rw [mxmlRun_append, h3]
  simp only [Except.bind]
  have h4 := run_name (rnd := rnd) htx hr k2 st (b1 ++ b2) (blank_append hb1 hb2) (st.drawn + 1) (rnd st.drawn)
  rw [mxmlRun_append]
  change (Except.bind (Except.bind (mxmlRun rnd (entrySt st (b1 ++ b2) (st.drawn + 1) ⟨rnd st.drawn, []⟩) _) _) _) = _
  rw [h4]
  simp only [Except.bind]
  -- type
  obtain ⟨b3, h5, hb3⟩ := run_gap rnd _ g3 (entrySt st [] (st.drawn + 1) ⟨rnd st.drawn, refBack ws ev.attrs ++ nameBack (strip (tx n))⟩)
  rw [mxmlRun_append, h5]
  simp only [Except.bind]
  rw [mxmlRun_append]
  have h6 := run_type (rnd := rnd) htx hty k3 st hf.eventType b3 hb3 (st.drawn + 1)
    ⟨rnd st.drawn, refBack ws ev.attrs ++ nameBack (strip (tx n))⟩ (by
      rw [dkeys_append, List.mem_append]
      rintro (h | h)
      · have := refBack_keys _ _ _ h; simp at this
      · have := nameBack_keys _ _ h; simp at this)
  change (Except.bind (Except.bind (mxmlRun rnd (entrySt st b3 (st.drawn + 1) _) _) _) _) = _
  rw [h6]
  simp only [Except.bind]
  -- originator, timestamp
  obtain ⟨b4, h7, hb4⟩ := run_skip rnd hk hot (entrySt st [] (st.drawn + 1) ⟨rnd st.drawn,
    refBack ws ev.attrs ++ nameBack (strip (tx n)) ++
      [lit py!"lifecycle:transition" (some lifecycleExt) (transitionBack ev.attrs) (typeRefBack ws ev.attrs)]⟩) blank_nil
  rw [h7]
  simp only
  have hsb : ∀ st', mxmlStopBody (F := F) st' py!"AuditTrailEntry" = stopEntry st' := by intro st'; simp [mxmlStopBody]
  have hname : nameBack (F := F) (strip (tx n)) =
      nameBack (((textAt py!"concept:name" ev.attrs).map fun n => strip (tx n)).getD []) := by
    subst hn
    cases textAt py!"concept:name" ev.attrs with
    | none => simp only [Option.getD_none, Option.map_none]; rw [htx [] (by simp)]; rfl
    | some n => rfl
  simp only [mxmlStop, hsb, stopEntry, setBuf, entrySt, hf.timestamp, appendEntry, ht, bind, Except.bind, hname, hf.entry]
  rfl

/-- The entries of a trace. -/
theorem run_entries {rnd : Nat → Uuid} {ws tx : Str → Str} (htx : PlainFixed tx) : ∀ {es : List (Event F)} {xs : List MNode},
    entriesXml es = .ok xs → ∀ {s : List MSax}, ReadsAll ws tx xs s → ∀ (st : MxmlSt F), Fresh st → Blank st.buffer →
    ∀ (t : Trace F), st.inst = some t →
    ∃ b n evs, mxmlRun rnd st s = .ok { st with buffer := b, drawn := n, inst := some { t with events := t.events ++ evs } } ∧
      Blank b ∧ evs.map Event.attrs = es.map (fun e => eventBack ws tx e.attrs)
  | [], xs, hx, s, hs, st, hf, hb, t, ht => by
    simp only [entriesXml, Except.ok.injEq] at hx
    subst hx
    cases hs with
    | nil hg =>
      obtain ⟨b, h, h'⟩ := run_gap rnd _ hg st
      refine ⟨st.buffer ++ b, st.drawn, [], ?_, blank_append hb h', rfl⟩
      rw [h]
      simp [setBuf, ← ht]
  | e :: es, xs, hx, s, hs, st, hf, hb, t, ht => by
    simp only [entriesXml] at hx
    obtain ⟨x, h1, hx⟩ := bind_ok.1 hx
    obtain ⟨xs', h2, hx⟩ := bind_ok.1 hx
    simp only [Except.ok.injEq] at hx
    subst hx
    cases hs with
    | cons hg hn hns =>
      obtain ⟨b, h3, h4⟩ := run_gap rnd _ hg st
      have h5 := run_entry (rnd := rnd) htx h1 hn (setBuf (st.buffer ++ b) st) ⟨hf.entry, hf.eventType, hf.timestamp⟩
        (blank_append hb h4) t ht
      obtain ⟨b', n, evs, h6, h7, h8⟩ := run_entries (rnd := rnd) htx h2 hns (st := { setBuf (st.buffer ++ b) st with
        buffer := [], drawn := st.drawn + 1, inst := some { t with events := t.events ++ [⟨rnd st.drawn, eventBack ws tx e.attrs⟩] } })
        ⟨hf.entry, hf.eventType, hf.timestamp⟩ blank_nil _ rfl
      refine ⟨b', n, ⟨rnd st.drawn, eventBack ws tx e.attrs⟩ :: evs, ?_, h7, by simp [h8]⟩
      simp only [mxmlRun_append, h3, Except.bind, h5]
      rw [List.append_assoc] at h6
      exact h6

end
section
variable {F : Type} [PyFloat F]

theorem description_back (keep : Str → Bool) (as : List (Str × Str)) {d : Str} (hd : dget py!"description" as = some d) (m : AttrMap F)
    (h : py!"description" ∉ dkeys m) :
    description keep as m = m ++ if keep d then [lit py!"description" none d []] else [] := by
  unfold description
  rw [hd]
  simp only
  split
  · rw [dset_eq_append _ h]; rfl
  · simp

theorem mxmlId_ok {m : AttrMap F} {id : Option Str} (h : mxmlId m = .ok id) : id = textAt py!"concept:name" m := by
  obtain ⟨v, hv, h⟩ := bind_ok.1 h
  unfold extractName extractOr at hv
  split at hv
  · rename_i a ha
    cases v <;> simp only [Except.ok.injEq, reduceCtorEq] at h
    · simp [textAt, ha, hv, ← h]
    · simp [textAt, ha, hv, ← h]
  · rename_i ha
    simp only [Except.ok.injEq] at hv
    subst hv
    simp only [Except.ok.injEq] at h
    simp [textAt, ha, ← h]

theorem not_mem_of {k : Str} {m : AttrMap F} {K : List Str} (h : ∀ x ∈ dkeys m, x ∈ K) (hk : k ∉ K) : k ∉ dkeys m :=
  fun hm => hk (h k hm)

theorem dget_mref_cons (a b : Str) (r : List (Str × Str)) :
    dget py!"modelReference" ([(py!"id", a), (py!"description", b)] ++ r) = dget py!"modelReference" r := by simp [dget]

theorem dget_id_cons (ws : Str → Str) (a b : Str) (r : List (Str × Str)) :
    dget py!"id" (xa ws ([(py!"id", a), (py!"description", b)] ++ r)) = some (ws a) ∧
    dget py!"description" (xa ws ([(py!"id", a), (py!"description", b)] ++ r)) = some (ws b) := by
  constructor <;> simp [dget, xa]

/-- One instance. -/
theorem run_instance {rnd : Nat → Uuid} {ws tx : Str → Str} (htx : PlainFixed tx) {tr : Trace F} {x : MNode}
    (hx : instanceXml tr = .ok x) {s : List MSax} (hs : Reads ws tx x s) (st : MxmlSt F) (hf : Fresh st) (hi : st.inst = none)
    (hl : st.lastTimestamp = none) (hb : Blank st.buffer) (p : MLog F) (hp : st.process = some p) :
    ∃ n evs, mxmlRun rnd st s = .ok { st with
        buffer := [], drawn := n,
        process := some { p with traces := p.traces ++ if tr.events = [] then [] else [⟨traceBack ws tr.attrs, evs⟩] } } ∧
      evs.map Event.attrs = tr.events.map (fun e => eventBack ws tx e.attrs) := by
  obtain ⟨id, hid, hx⟩ := bind_ok.1 hx
  obtain ⟨r, hr, hx⟩ := bind_ok.1 hx
  obtain ⟨d, hd, hx⟩ := bind_ok.1 hx
  obtain ⟨es, hes, hx⟩ := bind_ok.1 hx
  simp only [Except.ok.injEq] at hx
  subst hx
  have hid' := mxmlId_ok hid
  obtain ⟨s', hk, hrun⟩ := run_elem (F := F) (rnd := rnd) hs
  have h1 : ∀ name, name = ((textAt py!"concept:name" tr.attrs).getD py!"None") →
      mxmlStart rnd st py!"ProcessInstance" (xa ws ([(py!"id", name), (py!"description", py!"instance with id " ++ name)] ++ r)) =
      .ok { st with inst := some ⟨traceBack ws tr.attrs, []⟩ } := by
    intro name hname
    obtain ⟨g1, g2⟩ := dget_id_cons ws name (py!"instance with id " ++ name) r
    have g3 : mxmlStart rnd st py!"ProcessInstance" (xa ws ([(py!"id", name), (py!"description", py!"instance with id " ++ name)] ++ r)) =
      .ok (startInstance st (xa ws ([(py!"id", name), (py!"description", py!"instance with id " ++ name)] ++ r))) := by simp [mxmlStart]
    rw [g3]
    unfold startInstance
    rw [g1]
    simp only
    rw [assignName_back _ _ (by simp [dkeys]), List.nil_append, description_back _ _ g2, addRef_back hr (dget_mref_cons ..)]
    · have : ∀ w : Str, (decide (0 < (strip w).length) = true) = ¬ (strip w = []) := by
        intro w; rw [decide_eq_true_eq, List.length_pos_iff]
      simp only [this, traceBack, ← hname, ite_not, Option.getD_some]
    · apply not_mem_of (K := [py!"concept:name", py!"description"])
      · intro x hx
        rw [dkeys_append, List.mem_append] at hx
        rcases hx with hx | hx
        · rw [nameBack_keys _ _ hx]; simp
        · split at hx <;> simp [dkeys, lit] at hx
          simp [hx]
      · decide
    · apply not_mem_of (K := [py!"concept:name"])
      · intro x hx; rw [nameBack_keys _ _ hx]; simp
      · decide
  rw [hrun]
  rw [h1 _ (by rw [← hid'])]
  simp only [Except.bind]
  cases hk with
  | cons g1 k1 hk =>
  obtain ⟨b1, h2, hb1⟩ := run_skip rnd (ReadsAll.cons g1 k1 (ReadsAll.nil (ws := ws) (tx := tx) (g := []) (by intro e he; simp at he)))
    (by simpa using dataXml_skip hd) { st with inst := some ⟨traceBack ws tr.attrs, []⟩ } hb
  simp only [List.append_nil] at h2
  rw [← List.append_assoc, mxmlRun_append, h2]
  simp only [Except.bind]
  obtain ⟨b2, n, evs, h3, hb2, hevs⟩ := run_entries (rnd := rnd) htx hes hk (setBuf b1 { st with inst := some ⟨traceBack ws tr.attrs, []⟩ })
    ⟨hf.entry, hf.eventType, hf.timestamp⟩ hb1 _ rfl
  rw [h3]
  simp only [List.nil_append]
  refine ⟨n, evs, ?_, hevs⟩
  have hlen : evs.length = tr.events.length := by
    have := congrArg List.length hevs
    simpa using this
  have hsb : ∀ st', mxmlStopBody (F := F) st' py!"ProcessInstance" = stopInstance st' := by intro st'; simp [mxmlStopBody]
  simp only [mxmlStop, hsb, stopInstance, setBuf, hlen, hp]
  by_cases hz : tr.events = []
  · simp [hz, bind, Except.bind, ← hi, ← hl, ← hp]
  · have : 0 < tr.events.length := List.length_pos_iff.2 hz
    simp only [this, if_true, hz, if_false, bind, Except.bind, ← hi, ← hl]

/-- The instances of a log. -/
theorem run_instances {rnd : Nat → Uuid} {ws tx : Str → Str} (htx : PlainFixed tx) : ∀ {ts : List (Trace F)} {xs : List MNode},
    instancesXml ts = .ok xs → ∀ {s : List MSax}, ReadsAll ws tx xs s → ∀ (st : MxmlSt F), Fresh st → st.inst = none →
    st.lastTimestamp = none → Blank st.buffer → ∀ (p : MLog F), st.process = some p →
    ∃ b n trs, mxmlRun rnd st s = .ok { st with buffer := b, drawn := n, process := some { p with traces := p.traces ++ trs } } ∧
      Blank b ∧ trs.map (fun t => (t.attrs, t.events.map Event.attrs)) =
        (ts.filter (fun t => t.events ≠ [])).map (fun t => (traceBack ws t.attrs, t.events.map (fun e => eventBack ws tx e.attrs)))
  | [], xs, hx, s, hs, st, hf, hi, hl, hb, p, hp => by
    simp only [instancesXml, Except.ok.injEq] at hx
    subst hx
    cases hs with
    | nil hg =>
      obtain ⟨b, h, h'⟩ := run_gap rnd _ hg st
      refine ⟨st.buffer ++ b, st.drawn, [], ?_, blank_append hb h', rfl⟩
      rw [h]
      simp [setBuf, ← hp]
  | t :: ts, xs, hx, s, hs, st, hf, hi, hl, hb, p, hp => by
    simp only [instancesXml] at hx
    obtain ⟨x, h1, hx⟩ := bind_ok.1 hx
    obtain ⟨xs', h2, hx⟩ := bind_ok.1 hx
    simp only [Except.ok.injEq] at hx
    subst hx
    cases hs with
    | cons hg hn hns =>
      obtain ⟨b, h3, h4⟩ := run_gap rnd _ hg st
      obtain ⟨n, evs, h5, h6⟩ := run_instance (rnd := rnd) htx h1 hn (setBuf (st.buffer ++ b) st)
        ⟨hf.entry, hf.eventType, hf.timestamp⟩ hi hl (blank_append hb h4) p hp
      obtain ⟨b', n', trs, h7, h8, h9⟩ := run_instances (rnd := rnd) htx h2 hns (st := { setBuf (st.buffer ++ b) st with
        buffer := [], drawn := n,
        process := some { p with traces := p.traces ++ if t.events = [] then [] else [⟨traceBack ws t.attrs, evs⟩] } })
        ⟨hf.entry, hf.eventType, hf.timestamp⟩ hi hl blank_nil _ rfl
      refine ⟨b', n', (if t.events = [] then [] else [⟨traceBack ws t.attrs, evs⟩]) ++ trs, ?_, h8, ?_⟩
      · simp only [mxmlRun_append, h3, Except.bind, h5]
        simp only [List.append_assoc] at h7
        exact h7
      · rw [List.map_append, h9]
        by_cases hz : t.events = []
        · simp [hz]
        · simp [hz, h6]

theorem ownAll_append (as : AttrMap F) : ∀ (m : List (Str × MRef F)), (dkeys as).Nodup → (∀ k ∈ dkeys as, k ∉ dkeys m) →
    ownAll as m = m ++ as.map (fun p => (p.1, .own p.2)) := by
  induction as with
  | nil => intro m _ _; simp [ownAll]
  | cons a as ih =>
    intro m hn hd
    simp only [dkeys, List.map_cons, List.nodup_cons] at hn
    have h1 : ownAll (a :: as) m = ownAll as (dset a.1 (.own a.2) m) := rfl
    rw [h1, dset_eq_append _ (hd a.1 (by simp [dkeys])), ih _ hn.2]
    · simp
    · intro k hk
      simp only [dkeys, List.map_append, List.mem_append, List.map_cons, List.map_nil, List.mem_singleton, not_or]
      refine ⟨hd k (by simp only [dkeys, List.map_cons, List.mem_cons]; exact .inr hk), ?_⟩
      rintro rfl
      exact hn.1 hk

/-- The attributes of its own of a loaded log. -/
def ownBack (ws : Str → Str) (m : AttrMap F) : AttrMap F :=
  nameBack (ws ((textAt py!"concept:name" m).getD py!"none")) ++
  [lit py!"lifecycle:model" (some lifecycleExt) py!"standard" []] ++
  (if ws (py!"process with id " ++ (textAt py!"concept:name" m).getD py!"None") = [] then []
   else [lit py!"description" none (ws (py!"process with id " ++ (textAt py!"concept:name" m).getD py!"None")) []]) ++
  refBack ws m

theorem logBack_eq (ws : Str → Str) (m : AttrMap F) :
    logBack ws m = lit py!"source" none py!"XES MXML serialization" [] :: ownBack ws m := rfl

theorem ownBack_keys (ws : Str → Str) (m : AttrMap F) : (dkeys (ownBack ws m)).Nodup ∧ ∀ k ∈ dkeys (ownBack ws m), k ≠ py!"source" := by
  unfold ownBack nameBack refBack
  generalize textAt py!"concept:name" m = o
  constructor <;> (repeat' split) <;> simp [dkeys, lit]

/-- The log a `Process` element of the serializer starts. -/
def procBack (ws : Str → Str) (m : AttrMap F) (i : Nat) : MLog F where
  attrs := (py!"source", .source i) :: (ownBack ws m).map (fun p => (p.1, .own p.2))
  extensions := [conceptExt, orgExt, lifecycleExt, semanticExt, timeExt]
  classifiers := []
  globalTrace := []
  globalEvent := []
  traces := []

theorem startProcess_back {ws : Str → Str} {m : AttrMap F} {r : List (Str × Str)} (hr : refAttr m = .ok r) (st : MxmlSt F)
    {i : Nat} (hi : st.source = some i) {ident name : Str}
    (h1 : ident = (textAt py!"concept:name" m).getD py!"none")
    (h2 : name = (textAt py!"concept:name" m).getD py!"None") :
    startProcess st (xa ws ([(py!"id", ident), (py!"description", py!"process with id " ++ name)] ++ r)) =
      { st with process := some (procBack ws m i) } := by
  obtain ⟨g1, g2⟩ := dget_id_cons ws ident (py!"process with id " ++ name) r
  have hown : addRef (xa ws ([(py!"id", ident), (py!"description", py!"process with id " ++ name)] ++ r))
      (description (fun d => 0 < (pyLower d).length) (xa ws ([(py!"id", ident), (py!"description", py!"process with id " ++ name)] ++ r))
        (assignModel (some py!"standard") (assignName (some (ws ident)) []))) = ownBack ws m := by
    have hmod : ∀ m0 : AttrMap F, py!"lifecycle:model" ∉ dkeys m0 →
        assignModel (some py!"standard") m0 = m0 ++ [lit py!"lifecycle:model" (some lifecycleExt) py!"standard" []] := by
      intro m0 hm0
      unfold assignModel
      have a1 : given (some py!"standard") = true := by decide
      have a2 : strip py!"standard" = py!"standard" := by decide
      simp only [a1, if_true, a2]
      rw [dset_eq_append _ hm0]
      rfl
    rw [assignName_back _ _ (by simp [dkeys]), List.nil_append, hmod, description_back _ _ g2, addRef_back hr (dget_mref_cons ..)]
    · have : ∀ w : Str, (decide (0 < (pyLower w).length) = true) = ¬ (w = []) := by
        intro w
        rw [decide_eq_true_eq, pyLower_length, List.length_pos_iff]
      simp only [this, ownBack, ← h1, ← h2, ite_not]
    · apply not_mem_of (K := [py!"concept:name", py!"lifecycle:model", py!"description"])
      · intro x hx
        rw [dkeys_append, dkeys_append, List.mem_append, List.mem_append] at hx
        rcases hx with (hx | hx) | hx
        · rw [nameBack_keys _ _ hx]; simp
        · simp [dkeys, lit] at hx; simp [hx]
        · split at hx <;> simp [dkeys, lit] at hx
          simp [hx]
      · decide
    · apply not_mem_of (K := [py!"concept:name", py!"lifecycle:model"])
      · intro x hx
        rw [dkeys_append, List.mem_append] at hx
        rcases hx with hx | hx
        · rw [nameBack_keys _ _ hx]; simp
        · simp [dkeys, lit] at hx; simp [hx]
      · decide
    · apply not_mem_of (K := [py!"concept:name"])
      · intro x hx; rw [nameBack_keys _ _ hx]; simp
      · decide
  unfold startProcess
  rw [g1, hown, hi]
  simp only
  have h3 := ownAll_append (ownBack ws m) [(py!"source", MRef.source i)] (ownBack_keys ws m).1 (by
    intro k hk
    simpa [dkeys] using (ownBack_keys ws m).2 k hk)
  rw [h3]
  rfl

/-- **C47, exact form.** -/
theorem c47_exact (rnd : Nat → Uuid) {ws tx : Str → Str} (hws : PlainFixed ws) (htx : PlainFixed tx) (log : Log F) (x : MNode)
    (hx : serializeMxml log = .ok x) (s : List MSax) (hs : Reads ws tx x s) :
    ∃ l : Log F, mxmlParse rnd s = .ok [l] ∧
      l.attrs = logBack ws log.attrs ∧
      l.traces.map (fun t => (t.attrs, t.events.map Event.attrs)) =
        (log.traces.filter (fun t => t.events ≠ [])).map
          (fun t => (traceBack ws t.attrs, t.events.map (fun e => eventBack ws tx e.attrs))) ∧
      l.extensions = [conceptExt, orgExt, lifecycleExt, semanticExt, timeExt] ∧
      l.classifiers = [⟨py!"MXML Legacy Classifier", [py!"concept:name", py!"lifecycle:transition"]⟩,
        ⟨py!"Event Name", [py!"concept:name"]⟩, ⟨py!"Resource", [py!"org:resource"]⟩] ∧
      l.globalTrace = [(lit py!"concept:name" (some conceptExt) py!"UNKNOWN" []).2] ∧
      l.globalEvent = [(lit py!"concept:name" (some conceptExt) py!"UNKNOWN" []).2,
        (lit py!"lifecycle:transition" (some lifecycleExt) py!"complete" []).2] := by
  obtain ⟨id, hid, hx⟩ := bind_ok.1 hx
  obtain ⟨r, hr, hx⟩ := bind_ok.1 hx
  obtain ⟨d, hd, hx⟩ := bind_ok.1 hx
  obtain ⟨is, his, hx⟩ := bind_ok.1 hx
  simp only [Except.ok.injEq] at hx
  subst hx
  have hid' := mxmlId_ok hid
  obtain ⟨s', hk, hrun⟩ := run_elem (F := F) (rnd := rnd) hs
  cases hk with
  | cons g1 k1 hk =>
  cases hk with
  | cons g2 k2 hk =>
  cases hk with
  | nil g3 =>
  rename_i ga sa gb sb gc
  -- source
  obtain ⟨ba, ha, hba⟩ := run_gap rnd ga g1 (MxmlSt.init F)
  obtain ⟨s1, hk1, hrun1⟩ := run_elem (F := F) (rnd := rnd) k1
  let srcAttr : Attr F := (lit py!"source" none py!"XES MXML serialization" []).2
  let st1 : MxmlSt F := { MxmlSt.init F with sourceOpen := true, source := some 0, sources := [srcAttr] }
  have hsrc : ∀ b, mxmlStart rnd (setBuf b (MxmlSt.init F)) py!"Source"
      (xa ws [(py!"program", py!"XES MXML serialization"), (py!"openxes.version", py!"1.0RC7")]) = .ok (setBuf b st1) := by
    intro b
    have e1 : ws py!"XES MXML serialization" = py!"XES MXML serialization" := hws _ (by decide)
    have e2 : mxmlStart rnd (setBuf b (MxmlSt.init F)) py!"Source"
      (xa ws [(py!"program", py!"XES MXML serialization"), (py!"openxes.version", py!"1.0RC7")]) =
      .ok (startSource (setBuf b (MxmlSt.init F)) (xa ws [(py!"program", py!"XES MXML serialization"), (py!"openxes.version", py!"1.0RC7")])) := by
      simp [mxmlStart]
    rw [e2]
    have e3 : modelRef (xa ws [(py!"program", py!"XES MXML serialization"), (py!"openxes.version", py!"1.0RC7")]) = none := by
      simp [modelRef, xa, dget]
    have e4 : dget py!"program" (xa ws [(py!"program", py!"XES MXML serialization"), (py!"openxes.version", py!"1.0RC7")]) =
        some py!"XES MXML serialization" := by
      rw [dget_xa]; simp only [dget, if_true, Option.map_some, e1]
    simp only [startSource, e4, addRef, e3]
    rfl
  have hstopS : ∀ b, mxmlStop (setBuf b st1) py!"Source" = .ok st1 := by
    intro b
    simp [mxmlStop, mxmlStopBody, setBuf, st1, MxmlSt.init, bind, Except.bind]
  have hsa : ∀ b, mxmlRun rnd (setBuf b (MxmlSt.init F)) sa = .ok st1 := by
    intro b
    rw [hrun1, hsrc]
    simp only [Except.bind]
    cases hk1 with
    | nil hg =>
      obtain ⟨b', hb', _⟩ := run_gap rnd _ hg (setBuf b st1)
      rw [hb']
      exact hstopS _
  -- process
  obtain ⟨bb, hbr, hbb⟩ := run_gap rnd gb g2 st1
  obtain ⟨s2, hk2, hrun2⟩ := run_elem (F := F) (rnd := rnd) k2
  have hproc : ∀ b, mxmlStart rnd (setBuf b st1) py!"Process" (xa ws ([(py!"id", id.getD py!"none"),
      (py!"description", py!"process with id " ++ id.getD py!"None")] ++ r)) =
      .ok { setBuf b st1 with process := some (procBack ws log.attrs 0) } := by
    intro b
    have e := startProcess_back (ws := ws) hr (setBuf b st1) (i := 0) rfl (ident := id.getD py!"none")
      (name := id.getD py!"None") (by rw [hid']) (by rw [hid'])
    rw [← e]
    simp [mxmlStart]
  cases hk2 with
  | cons g4 k4 hk4 =>
  rename_i gd sd se
  obtain ⟨b1, h2, hb1⟩ := run_skip rnd (ReadsAll.cons g4 k4 (ReadsAll.nil (ws := ws) (tx := tx) (g := []) (by intro e he; simp at he)))
    (by simpa using dataXml_skip hd) { setBuf bb st1 with process := some (procBack ws log.attrs 0) } hbb
  simp only [List.append_nil] at h2
  obtain ⟨b2, n, trs, h3, hb2, htrs⟩ := run_instances (rnd := rnd) htx his hk4
    (setBuf b1 { setBuf bb st1 with process := some (procBack ws log.attrs 0) }) ⟨rfl, rfl, rfl⟩ rfl rfl hb1 _ rfl
  let fin : MLog F := { procBack ws log.attrs 0 with
    traces := trs, classifiers := mxmlClassifiers,
    globalTrace := [cloned .literal py!"concept:name" conceptExt (.str py!"UNKNOWN")],
    globalEvent := [cloned .literal py!"concept:name" conceptExt (.str py!"UNKNOWN"),
      cloned .literal py!"lifecycle:transition" lifecycleExt (.str py!"complete")] }
  have hsb : mxmlRun rnd (setBuf bb st1) sb = .ok { st1 with drawn := n, logs := [fin] } := by
    rw [hrun2, hproc]
    simp only [Except.bind]
    rw [← List.append_assoc, mxmlRun_append, h2]
    simp only [Except.bind]
    rw [h3]
    simp only [mxmlStop]
    have hsbody : ∀ st', mxmlStopBody (F := F) st' py!"Process" = stopProcess st' := by intro st'; simp [mxmlStopBody]
    rw [hsbody]
    rfl
  obtain ⟨bc, hcr, _⟩ := run_gap rnd gc g3 { st1 with drawn := n, logs := [fin] }
  have hall : ∃ b, mxmlRun rnd (MxmlSt.init F) s = .ok (setBuf b { st1 with drawn := n, logs := [fin] }) := by
    refine ⟨[], ?_⟩
    rw [hrun]
    have e1 : mxmlStart rnd (MxmlSt.init F) py!"WorkflowLog" (xa ws []) = .ok (MxmlSt.init F) := by simp [mxmlStart]
    rw [e1]
    simp only [Except.bind]
    rw [mxmlRun_append, ha]
    simp only [Except.bind]
    rw [mxmlRun_append, hsa]
    simp only [Except.bind]
    rw [mxmlRun_append, hbr]
    simp only [Except.bind]
    have hbb' : setBuf (st1.buffer ++ bb) st1 = setBuf bb st1 := rfl
    rw [hbb', mxmlRun_append, hsb]
    simp only [Except.bind]
    rw [hcr]
    simp [mxmlStop, mxmlStopBody, setBuf, bind, Except.bind]
  obtain ⟨b, hall⟩ := hall
  refine ⟨MLog.toLog [srcAttr] fin, ?_, ?_, htrs, rfl, rfl, rfl, rfl⟩
  · unfold mxmlParse
    rw [hall]
    rfl
  · rw [logBack_eq]
    simp only [MLog.toLog, fin, procBack, List.filterMap_cons]
    have : ∀ l : AttrMap F, (l.map (fun p => (p.1, MRef.own p.2))).filterMap (fun p => p.2.see [srcAttr] p.1) = l := by
      intro l
      induction l with
      | nil => rfl
      | cons p l ih =>
        simp only [List.map_cons, List.filterMap_cons, MRef.see] at ih ⊢
        rw [ih]
    rw [this]
    rfl

end
section
variable {F : Type} [PyFloat F]

/-! ## C47 -/

theorem dget_append (k : Str) (a b : AttrMap F) : dget k (a ++ b) = (dget k a).or (dget k b) := by
  induction a with
  | nil => simp [dget]
  | cons p r ih =>
    obtain ⟨k', v⟩ := p
    simp only [List.cons_append, dget]
    split
    · simp
    · exact ih

theorem dget_refBack {k : Str} (hk : k ≠ py!"semantic:modelReference") (ws : Str → Str) (m : AttrMap F) : dget k (refBack ws m) = none := by
  rw [dget_eq_none]
  intro h
  exact hk (refBack_keys ws m k h)

theorem dget_nameBack {n : Str} (h : strip n ≠ []) :
    dget py!"concept:name" (nameBack (F := F) n) = some (lit py!"concept:name" (some conceptExt) n []).2 := by
  simp [nameBack, h, dget, lit]

theorem textAt_event (ws tx : Str → Str) (m : AttrMap F)
    (h : ∀ n, textAt py!"concept:name" m = some n → tx n = n ∧ strip n = n ∧ n ≠ []) :
    textAt py!"concept:name" (eventBack ws tx m) = textAt py!"concept:name" m ∧
    textAt py!"lifecycle:transition" (eventBack ws tx m) = some (transitionBack m) := by
  constructor
  · cases hn : textAt py!"concept:name" m with
    | none =>
      have h0 : nameBack (F := F) [] = [] := by simp [nameBack, strip, lstrip, rstrip]
      have h1 : dget py!"concept:name" (eventBack ws tx m) = none := by
        simp only [eventBack, hn, Option.map_none, Option.getD_none, h0, dget_append]
        rw [dget_refBack (by decide)]
        simp [dget, lit]
      unfold textAt
      rw [h1]
    | some n =>
      obtain ⟨h1, h2, h3⟩ := h n hn
      have h4 : strip n ≠ [] := by rw [h2]; exact h3
      unfold textAt
      simp only [eventBack, hn, Option.map_some, Option.getD_some, h1, h2, dget_append, dget_nameBack h4]
      rw [dget_refBack (by decide)]
      simp [lit, getValue, Attr.kind, Attr.val, Kind.isCollection]
  · unfold textAt
    have h1 : dget py!"lifecycle:transition" (eventBack ws tx m) =
        some (lit py!"lifecycle:transition" (some lifecycleExt) (transitionBack m) (typeRefBack ws m)).2 := by
      unfold eventBack
      rw [dget_append, dget_append, dget_refBack (by decide)]
      have : ∀ n : Str, dget py!"lifecycle:transition" (nameBack (F := F) n) = none := by
        intro n
        rw [dget_eq_none]
        intro h
        have := nameBack_keys n _ h
        simp at this
      rw [this]
      simp [dget, lit]
    rw [h1]
    simp [lit, getValue, Attr.kind, Attr.val, Kind.isCollection]

theorem textAt_trace (ws : Str → Str) (m : AttrMap F) {n : Str} (h : textAt py!"concept:name" m = some n) (h1 : ws n = n)
    (h2 : strip n ≠ []) : textAt py!"concept:name" (traceBack ws m) = some n := by
  unfold textAt
  simp only [traceBack, h, Option.getD_some, h1, dget_append, dget_nameBack h2]
  simp [lit, getValue, Attr.kind, Attr.val, Kind.isCollection]

/-- The names of a log: per trace its name and, per event, the name and the transition. -/
def namesOf (l : Log F) : List (Option Str × List (Option Str × Option Str)) :=
  l.traces.map fun t => (textAt py!"concept:name" t.attrs,
    t.events.map fun e => (textAt py!"concept:name" e.attrs, textAt py!"lifecycle:transition" e.attrs))

/-- **C47.** -/
theorem c47_roundtrip (rnd : Nat → Uuid) {ws tx : Str → Str} (hws : PlainFixed ws) (htx : PlainFixed tx) (log : Log F) (x : MNode)
    (hx : serializeMxml log = .ok x) (s : List MSax) (hs : Reads ws tx x s)
    (hev : ∀ t ∈ log.traces, t.events ≠ [])
    (htn : ∀ t ∈ log.traces, ∃ n, textAt py!"concept:name" t.attrs = some n ∧ ws n = n ∧ strip n ≠ [])
    (hen : ∀ t ∈ log.traces, ∀ e ∈ t.events, ∀ n, textAt py!"concept:name" e.attrs = some n → tx n = n ∧ strip n = n ∧ n ≠ [])
    (htt : ∀ t ∈ log.traces, ∀ e ∈ t.events, ∃ v ∈ [py!"schedule", py!"assign", py!"withdraw", py!"reassign", py!"start", py!"suspend",
      py!"resume", py!"pi_abort", py!"ate_abort", py!"complete", py!"autoskip", py!"manualskip"],
      textAt py!"lifecycle:transition" e.attrs = some v) :
    ∃ l : Log F, mxmlParse rnd s = .ok [l] ∧ namesOf l = namesOf log := by
  obtain ⟨l, h1, _, h3, _⟩ := c47_exact rnd hws htx log x hx s hs
  refine ⟨l, h1, ?_⟩
  have hfil : log.traces.filter (fun t => t.events ≠ []) = log.traces := by
    rw [List.filter_eq_self]
    intro t ht
    simpa using hev t ht
  rw [hfil] at h3
  have h4 := congrArg (List.map fun p : AttrMap F × List (AttrMap F) => (textAt py!"concept:name" p.1,
    p.2.map fun m => (textAt py!"concept:name" m, textAt py!"lifecycle:transition" m))) h3
  simp only [List.map_map, Function.comp_def] at h4
  unfold namesOf
  rw [h4]
  apply List.map_congr_left
  intro t ht
  obtain ⟨n, n1, n2, n3⟩ := htn t ht
  simp only [Prod.mk.injEq]
  refine ⟨by rw [textAt_trace ws t.attrs n1 n2 n3, n1], ?_⟩
  apply List.map_congr_left
  intro e he
  obtain ⟨e1, e2⟩ := textAt_event ws tx e.attrs (hen t ht e he)
  obtain ⟨v, hv, hv'⟩ := htt t ht e he
  simp only [e1, e2, Prod.mk.injEq, true_and]
  rw [hv']
  unfold transitionBack
  rw [hv']
  have hall : ∀ w ∈ [py!"schedule", py!"assign", py!"withdraw", py!"reassign", py!"start", py!"suspend",
      py!"resume", py!"pi_abort", py!"ate_abort", py!"complete", py!"autoskip", py!"manualskip"], pyLower (strip w) = w := by decide
  simp only [hall v hv, hv, if_true]

/-- A model reference is absent or a string. -/
def RefOk (m : AttrMap F) : Prop := ∀ a, dget py!"semantic:modelReference" m = some a → ∃ s, getValue a = .ok (.str s)

/-- What the serializer needs of every element: the name and the model reference are strings, and the
model reference has no nested attributes. -/
def ElemOk (m : AttrMap F) : Prop :=
  (∀ a, dget py!"concept:name" m = some a → ∃ s, getValue a = .ok (.str s)) ∧ RefOk m ∧
  ∀ p ∈ m, p.2.key = py!"semantic:modelReference" → p.2.attrs = [] ∧ ∃ s, attrStr p.2 = .ok s

/-- What the serializer needs of an event. -/
def EventOk (m : AttrMap F) : Prop :=
  ElemOk m ∧
  (∀ k ∈ [py!"lifecycle:transition", py!"org:resource", py!"org:role", py!"org:group"], ∀ a, dget k m = some a →
    (∃ s, getValue a = .ok (.str s)) ∧ RefOk a.attrs) ∧
  (∀ a, dget py!"time:timestamp" m = some a → (∃ v, getValue a = .ok v) ∧ RefOk a.attrs)

theorem refAttr_ex {m : AttrMap F} (h : RefOk m) : ∃ r, refAttr m = .ok r := by
  unfold refAttr
  cases hd : dget py!"semantic:modelReference" m with
  | none => exact ⟨_, rfl⟩
  | some a =>
    obtain ⟨s, hs⟩ := h a hd
    exact ⟨[(py!"modelReference", s)], by simp [hs, xmlStr, bind, Except.bind]⟩

theorem dataKids_ex : ∀ (m : List (Str × Attr F)), (∀ p ∈ m, p.2.key = py!"semantic:modelReference" → p.2.attrs = [] ∧ ∃ s, attrStr p.2 = .ok s) →
    ∃ ks, dataKids m = .ok ks
  | [], _ => ⟨[], rfl⟩
  | (k, a) :: m, h => by
    obtain ⟨ks, hks⟩ := dataKids_ex m (fun p hp => h p (List.mem_cons_of_mem _ hp))
    simp only [dataKids]
    split
    · rename_i hk
      obtain ⟨h1, t, ht⟩ := h (k, a) (List.mem_cons_self ..) hk
      simp only at h1 ht
      simp only [h1, ht, hks, refAttr, dget, bind, Except.bind, List.length_nil, Nat.lt_irrefl, if_false]
      exact ⟨_, rfl⟩
    · exact ⟨ks, hks⟩

theorem mxmlId_ex {m : AttrMap F} (h : ∀ a, dget py!"concept:name" m = some a → ∃ s, getValue a = .ok (.str s)) : ∃ i, mxmlId m = .ok i := by
  unfold mxmlId extractName extractOr
  cases hd : dget py!"concept:name" m with
  | none => exact ⟨none, rfl⟩
  | some a =>
    obtain ⟨s, hs⟩ := h a hd
    exact ⟨some s, by simp [hs, bind, Except.bind]⟩

theorem entryXml_ex {e : Event F} (h : EventOk e.attrs) : ∃ x, entryXml e = .ok x := by
  obtain ⟨⟨h1, h2, h3⟩, h4, h5⟩ := h
  obtain ⟨ks, hks⟩ := dataKids_ex e.attrs h3
  obtain ⟨r, hr⟩ := refAttr_ex h2
  have hname : ∃ ns, (extractName e.attrs).bind (fun v => xmlText v) = .ok ns := by
    unfold extractName extractOr
    cases hd : dget py!"concept:name" e.attrs with
    | none => exact ⟨[], rfl⟩
    | some a =>
      obtain ⟨s, hs⟩ := h1 a hd
      exact ⟨_, by simp only [hs, Except.bind, xmlText]; rfl⟩
  obtain ⟨ns, hns⟩ := hname
  have htype : ∃ t, typeXml e.attrs = .ok t := by
    unfold typeXml
    cases hd : dget py!"lifecycle:transition" e.attrs with
    | none => exact ⟨_, rfl⟩
    | some a =>
      obtain ⟨⟨s, hs⟩, hra⟩ := h4 _ (by simp) a hd
      obtain ⟨r', hr'⟩ := refAttr_ex hra
      simp only [hr', hs, bind, Except.bind]
      split <;> exact ⟨_, rfl⟩
  obtain ⟨t, ht⟩ := htype
  have horig : ∃ o, originatorXml e.attrs = .ok o := by
    unfold originatorXml
    have : ∀ a, (dget py!"org:resource" e.attrs).or ((dget py!"org:role" e.attrs).or (dget py!"org:group" e.attrs)) = some a →
        (∃ s, getValue a = .ok (.str s)) ∧ RefOk a.attrs := by
      intro a ha
      rw [Option.or_eq_some_iff, Option.or_eq_some_iff] at ha
      rcases ha with ha | ⟨_, ha | ⟨_, ha⟩⟩
      · exact h4 _ (by simp) a ha
      · exact h4 _ (by simp) a ha
      · exact h4 _ (by simp) a ha
    cases hd : (dget py!"org:resource" e.attrs).or ((dget py!"org:role" e.attrs).or (dget py!"org:group" e.attrs)) with
    | none => exact ⟨_, rfl⟩
    | some a =>
      obtain ⟨⟨s, hs⟩, hra⟩ := this a hd
      obtain ⟨r', hr'⟩ := refAttr_ex hra
      simp only [hr', hs, bind, Except.bind, xmlText]
      exact ⟨_, rfl⟩
  obtain ⟨o, ho⟩ := horig
  have htime : ∃ o, timestampXml e.attrs = .ok o := by
    unfold timestampXml
    cases hd : dget py!"time:timestamp" e.attrs with
    | none => exact ⟨_, rfl⟩
    | some a =>
      obtain ⟨⟨s, hs⟩, hra⟩ := h5 a hd
      obtain ⟨r', hr'⟩ := refAttr_ex hra
      simp only [hr', hs, bind, Except.bind]
      exact ⟨_, rfl⟩
  obtain ⟨ts, hts⟩ := htime
  unfold entryXml dataXml
  simp only [bind] at hns ⊢
  simp only [hks, hr, Except.bind]
  cases hv : extractName e.attrs with
  | error er => rw [hv] at hns; simp [Except.bind] at hns
  | ok v =>
    rw [hv] at hns
    simp only [Except.bind] at hns
    simp only [hns, ht, ho, hts]
    exact ⟨_, rfl⟩

theorem entriesXml_ex : ∀ (es : List (Event F)), (∀ e ∈ es, EventOk e.attrs) → ∃ xs, entriesXml es = .ok xs
  | [], _ => ⟨[], rfl⟩
  | e :: es, h => by
    obtain ⟨x, hx⟩ := entryXml_ex (h e (List.mem_cons_self ..))
    obtain ⟨xs, hxs⟩ := entriesXml_ex es (fun e he => h e (List.mem_cons_of_mem _ he))
    exact ⟨x :: xs, by simp [entriesXml, hx, hxs, bind, Except.bind]⟩

theorem instancesXml_ex : ∀ (ts : List (Trace F)), (∀ t ∈ ts, ElemOk t.attrs ∧ ∀ e ∈ t.events, EventOk e.attrs) →
    ∃ xs, instancesXml ts = .ok xs
  | [], _ => ⟨[], rfl⟩
  | t :: ts, h => by
    obtain ⟨⟨h1, h2, h3⟩, h4⟩ := h t (List.mem_cons_self ..)
    obtain ⟨xs, hxs⟩ := instancesXml_ex ts (fun e he => h e (List.mem_cons_of_mem _ he))
    obtain ⟨ks, hks⟩ := dataKids_ex t.attrs h3
    obtain ⟨r, hr⟩ := refAttr_ex h2
    obtain ⟨i, hi⟩ := mxmlId_ex h1
    obtain ⟨es, hes⟩ := entriesXml_ex t.events h4
    simp only [instancesXml, instanceXml, dataXml, hxs, hks, hr, hi, hes, bind, Except.bind]
    exact ⟨_, rfl⟩

/-- The logs the serializer accepts include all logs whose names, transitions, resources and model
references are strings and whose model references have no nested attributes. -/
theorem c47_serializes (log : Log F) (h1 : ElemOk log.attrs)
    (h2 : ∀ t ∈ log.traces, ElemOk t.attrs ∧ ∀ e ∈ t.events, EventOk e.attrs) : ∃ x, serializeMxml log = .ok x := by
  obtain ⟨xs, hxs⟩ := instancesXml_ex log.traces h2
  obtain ⟨ks, hks⟩ := dataKids_ex log.attrs h1.2.2
  obtain ⟨r, hr⟩ := refAttr_ex h1.2.1
  obtain ⟨i, hi⟩ := mxmlId_ex h1.1
  simp only [serializeMxml, dataXml, hxs, hks, hr, hi, bind, Except.bind]
  exact ⟨_, rfl⟩

mutual
/-- The plain delivery of a document. -/
def MNode.say : MNode → List MSax
  | .text t => [.chars t]
  | .elem t as ks => .start t as :: (sayAll ks ++ [.stop t])
def sayAll : List MNode → List MSax
  | [] => []
  | n :: ns => n.say ++ sayAll ns
end

mutual
theorem say_reads : ∀ n : MNode, Reads id id n n.say
  | .text t => by
    have := Reads.text (ws := id) (tx := id) (s := t) (chunks := [t]) (by simp)
    simpa [MNode.say] using this
  | .elem t as ks => by
    have := Reads.elem (t := t) (as := as) (sayAll_reads ks)
    simpa [MNode.say] using this
theorem sayAll_reads : ∀ ns : List MNode, ReadsAll id id ns (sayAll ns)
  | [] => ReadsAll.nil (fun e he => by cases he)
  | n :: ns => by
    have := ReadsAll.cons (g := []) (fun e he => by cases he) (say_reads n) (sayAll_reads ns)
    simpa [sayAll] using this
end

/-! ## C48 -/

/-- **C48, as far as it fails.** No event read back has a timestamp or a resource, whatever was written. -/
theorem c48_lost (rnd : Nat → Uuid) {ws tx : Str → Str} (hws : PlainFixed ws) (htx : PlainFixed tx) (log : Log F) (x : MNode)
    (hx : serializeMxml log = .ok x) (s : List MSax) (hs : Reads ws tx x s) :
    ∃ l : Log F, mxmlParse rnd s = .ok [l] ∧
      ∀ t ∈ l.traces, ∀ e ∈ t.events, dget py!"time:timestamp" e.attrs = none ∧ dget py!"org:resource" e.attrs = none := by
  obtain ⟨l, h1, _, h3, _⟩ := c47_exact rnd hws htx log x hx s hs
  refine ⟨l, h1, ?_⟩
  intro t ht e he
  have hm : (t.attrs, t.events.map Event.attrs) ∈ l.traces.map (fun t => (t.attrs, t.events.map Event.attrs)) :=
    List.mem_map.2 ⟨t, ht, rfl⟩
  rw [h3] at hm
  obtain ⟨t0, _, h4⟩ := List.mem_map.1 hm
  have h5 : e.attrs ∈ t0.events.map (fun e => eventBack ws tx e.attrs) := by
    have : t0.events.map (fun e => eventBack ws tx e.attrs) = t.events.map Event.attrs := congrArg Prod.snd h4
    rw [this]
    exact List.mem_map.2 ⟨e, he, rfl⟩
  obtain ⟨e0, _, h6⟩ := List.mem_map.1 h5
  rw [← h6]
  have hkeys : ∀ k ∈ dkeys (eventBack ws tx e0.attrs), k ∈ [py!"semantic:modelReference", py!"concept:name", py!"lifecycle:transition"] := by
    intro k hk
    unfold eventBack at hk
    rw [dkeys_append, dkeys_append, List.mem_append, List.mem_append] at hk
    rcases hk with (hk | hk) | hk
    · rw [refBack_keys _ _ _ hk]; simp
    · rw [nameBack_keys _ _ hk]; simp
    · simp [dkeys, lit] at hk; simp [hk]
  constructor
  · rw [dget_eq_none]; intro hk; have := hkeys _ hk; simp at this
  · rw [dget_eq_none]; intro hk; have := hkeys _ hk; simp at this

end

/-! ## Cases -/

/-- A log of one trace with one event. -/
def mxLog : Log ToyFloat where
  attrs := [lit py!"concept:name" none py!"L" []]
  extensions := []
  classifiers := []
  globalTrace := []
  globalEvent := []
  features := []
  traces := [{ attrs := [lit py!"concept:name" none py!"case 1" []],
               events := [{ id := ⟨0, by decide⟩,
                            attrs := [lit py!"concept:name" none py!"register" [], lit py!"org:resource" none py!"Ann" [],
                              lit py!"lifecycle:transition" none py!"start" []] }] }]

example : ∃ x, serializeMxml mxLog = .ok x := by
  refine c47_serializes mxLog ?_ ?_
  · simp [mxLog, ElemOk, RefOk, lit, dget, getValue, Attr.kind, Attr.val, Attr.key, Kind.isCollection]
  · simp [mxLog, ElemOk, EventOk, RefOk, lit, dget, getValue, Attr.kind, Attr.val, Attr.key, Attr.attrs, Kind.isCollection]
    rintro a b (⟨_, rfl⟩ | ⟨_, rfl⟩ | ⟨_, rfl⟩) h <;> simp at h

example : PlainFixed id := fun _ _ => rfl

example : ∀ t ∈ mxLog.traces, t.events ≠ [] := by simp [mxLog]

/-- All hypotheses of `c47_roundtrip` at once, on the plain delivery. -/
example : ∃ x l, serializeMxml mxLog = .ok x ∧ mxmlParse (F := ToyFloat) (fun _ => ⟨0, by decide⟩) x.say = .ok [l] ∧
    namesOf l = [(some py!"case 1", [(some py!"register", some py!"start")])] := by
  obtain ⟨x, hx⟩ : ∃ x, serializeMxml mxLog = .ok x := ⟨_, rfl⟩
  obtain ⟨l, h1, h2⟩ := c47_roundtrip (fun _ => ⟨0, by decide⟩) (ws := id) (tx := id) (fun _ _ => rfl) (fun _ _ => rfl) mxLog x hx
    x.say (say_reads x) (by simp [mxLog]) (by simp [mxLog, textAt, lit, dget, getValue, Attr.kind, Attr.val, Kind.isCollection]; decide)
    (by simp [mxLog, textAt, lit, dget, getValue, Attr.kind, Attr.val, Kind.isCollection]; decide)
    (by simp [mxLog, textAt, lit, dget, getValue, Attr.kind, Attr.val, Kind.isCollection])
  exact ⟨x, l, hx, h1, by rw [h2]; decide +kernel⟩

/-- **C48, refuted.** A log whose event has a resource that does not come back. -/
theorem c48_refuted : ¬ ∀ (log : Log ToyFloat) (x : MNode) (l : Log ToyFloat), serializeMxml log = .ok x →
    mxmlParse (fun _ => ⟨0, by decide⟩) x.say = .ok [l] →
    l.traces.map (fun t => t.events.map fun e => textAt py!"org:resource" e.attrs) =
      log.traces.map (fun t => t.events.map fun e => textAt py!"org:resource" e.attrs) := by
  intro h
  obtain ⟨x, hx⟩ : ∃ x, serializeMxml mxLog = .ok x := ⟨_, rfl⟩
  obtain ⟨l, h1, h2⟩ := c48_lost (fun _ => ⟨0, by decide⟩) (ws := id) (tx := id) (fun _ _ => rfl) (fun _ _ => rfl) mxLog x hx
    x.say (say_reads x)
  have h3 := h mxLog x l hx h1
  have h4 : [some py!"Ann"] ∈ l.traces.map (fun t => t.events.map fun e => textAt py!"org:resource" e.attrs) := by
    rw [h3]; decide +kernel
  obtain ⟨t, ht, h5⟩ := List.mem_map.1 h4
  have h6 : some py!"Ann" ∈ t.events.map fun e => textAt py!"org:resource" e.attrs := by rw [h5]; simp
  obtain ⟨e, he, h7⟩ := List.mem_map.1 h6
  unfold textAt at h7
  rw [(h2 t ht e he).2] at h7
  simp at h7

end Opy
