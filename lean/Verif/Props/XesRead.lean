import Verif.Lemmas.Xes
import Verif.Props.Attr
/-
Properties C42 to C46: what the XES handler does with arbitrary documents.
-/
set_option linter.unusedSectionVars false

namespace Opy

section
variable {F : Type} [PyFloat F]

/-! ## C43: unknown elements, letter case -/

/-- The element names XES knows, in lower case. -/
def xesNames : List Str :=
  [py!"string", py!"date", py!"int", py!"float", py!"boolean", py!"id", py!"list", py!"container",
   py!"log", py!"trace", py!"event", py!"extension", py!"global", py!"classifier"]

/-- The name of the element a reader event is about. -/
def Sax.tag : Sax → Str
  | .start t _ => t
  | .stop t => t

theorem step_unknown {e : Sax} (he : lower e.tag ∉ xesNames) (fac : Factory F) (mgr : ExtMgr) (st : XesSt F) :
    xesStep fac mgr st e = .ok st := by
  have ha : lower e.tag ∉ attrTags := fun hm => he (by
    simp only [attrTags, xesNames, List.mem_cons, List.not_mem_nil, or_false] at hm ⊢
    rcases hm with h | h | h | h | h | h | h | h <;> simp [h])
  simp only [xesNames, List.mem_cons, List.not_mem_nil, or_false, not_or] at he
  obtain ⟨_, _, _, _, _, _, _, _, h1, h2, h3, h4, h5, h6⟩ := he
  cases e with
  | start t as =>
    simp only [Sax.tag] at *
    simp only [xesStep, xesStart, ha, not_false_eq_true, if_true, h1, h2, h3, h4, h5, h6, if_false]
  | stop t =>
    simp only [Sax.tag] at *
    exact stop_ignored ha h5 h3 h2 h1 fac mgr

/-- C43 (first half): the reader events of elements with unknown names have no effect at all, wherever
and in whatever order they occur. -/
theorem c43_unknown_ignored (fac : Factory F) (mgr : ExtMgr) (st : XesSt F) (evs : List Sax) :
    xesRun fac mgr st evs = xesRun fac mgr st (evs.filter fun e => lower e.tag ∈ xesNames) := by
  induction evs generalizing st with
  | nil => rfl
  | cons e es ih =>
    by_cases he : lower e.tag ∈ xesNames
    · simp only [List.filter_cons, he, decide_true, if_true, xesRun]
      cases xesStep fac mgr st e with
      | error err => rfl
      | ok s => exact ih s
    · simp only [List.filter_cons, he, decide_false, Bool.false_eq_true, if_false, xesRun, step_unknown he]
      exact ih st

/-- C43, as an insertion: an unknown start or end tag between any two events of a file changes neither
the result nor the exception. -/
theorem c43_insertion (given : Option (Factory F)) (reg : Factory F) (mgr : ExtMgr) (h : Heap F) (xs ys : List Sax) (e : Sax)
    (he : lower e.tag ∉ xesNames) : xesParse given reg mgr h (xs ++ e :: ys) = xesParse given reg mgr h (xs ++ ys) := by
  unfold xesParse
  rw [c43_unknown_ignored, c43_unknown_ignored reg mgr _ (xs ++ ys)]
  simp [he]

/-- The same event with another spelling of the element name. -/
def Sax.rename (f : Str → Str) : Sax → Sax
  | .start t as => .start (f t) as
  | .stop t => .stop (f t)

/-- C43 (second half): the letter case of element names does not matter. -/
theorem c43_case (f : Str → Str) (hf : ∀ t, lower (f t) = lower t) (given : Option (Factory F)) (reg : Factory F)
    (mgr : ExtMgr) (h : Heap F) (evs : List Sax) :
    xesParse given reg mgr h (evs.map (Sax.rename f)) = xesParse given reg mgr h evs := by
  have hstep : ∀ (st : XesSt F) e, xesStep reg mgr st (Sax.rename f e) = xesStep reg mgr st e := by
    intro st e
    cases e with
    | start t as => simp only [Sax.rename, xesStep, xesStart, hf]
    | stop t => simp only [Sax.rename, xesStep, xesStop, hf]
  have hrun : ∀ (evs : List Sax) (st : XesSt F), xesRun reg mgr st (evs.map (Sax.rename f)) = xesRun reg mgr st evs := by
    intro evs
    induction evs with
    | nil => intro st; rfl
    | cons e es ih =>
      intro st
      simp only [List.map_cons, xesRun, hstep]
      cases xesStep reg mgr st e with
      | error err => rfl
      | ok s => exact ih s
  unfold xesParse
  rw [hrun]

/-- Upper case is such a respelling, on a document with every kind of element. -/
example : ∀ t ∈ xesNames, lower (upper t) = lower t := by decide

/-! ## C45: the factory -/

/-- C45, what the code does: the given factory has no influence. -/
theorem c45_factory_ignored (given given' : Option (Factory F)) (reg : Factory F) (mgr : ExtMgr) (h : Heap F) (evs : List Sax) :
    xesParse given reg mgr h evs = xesParse given' reg mgr h evs := rfl

end

/-- No extensions at all. -/
def noExts : ExtMgr := ⟨fun _ => none, fun _ => .ok none⟩

/-- A factory whose logs carry a mark. -/
def markedFactory : Factory ToyFloat :=
  { stdFactory ToyFloat (fun _ => 0) with
    newLog := fun h => let (m, h) := h.alloc (.map [])
      h.alloc (.log ⟨m, [], [], [], [], [(py!"mark", py!"yes")], []⟩) }

/-- The features of the loaded log. -/
def loadedFeatures {F : Type} (r : Except PyErr (Option Ref × Heap F)) : Option (List (Str × Str)) :=
  match r with
  | .ok (some l, h) => match h.get l with
    | some (.log o) => some o.features
    | _ => none
  | _ => none

/-- C45, refuted: with a factory that marks its logs, the loaded log of the smallest document carries
no mark; with the same factory in the registry it does. -/
theorem c45_factory_refuted :
    loadedFeatures (xesParse (some markedFactory) (stdFactory ToyFloat fun _ => 0) noExts ⟨[], 0⟩
      (Xml.elem py!"log" [] []).sax) = some [] ∧
    loadedFeatures (xesParse none markedFactory noExts ⟨[], 0⟩ (Xml.elem py!"log" [] []).sax) =
      some [(py!"mark", py!"yes")] := by decide +kernel

section
variable {F : Type} [PyFloat F]

/-- C45, what holds: if the given factory is the one in the registry, the log is built with it.  Missing:
any other factory (false, see `c45_factory_refuted`). -/
theorem c45_factory_partial (fac : Factory F) (mgr : ExtMgr) (h : Heap F) (evs : List Sax) :
    xesParse (some fac) fac mgr h evs = (xesRun fac mgr (.init h) evs >>= fun st => .ok (st.log, st.heap)) := rfl

/-! ## C44: unreadable dates -/

/-- A `<date>` start tag whose value is not a date. -/
def isBadDate : Sax → Bool
  | .start t as => lower t = py!"date" && (match parseDateTime (elemValue as) with
    | .ok none => true
    | _ => false)
  | .stop _ => false

mutual
/-- Does the document contain an unreadable date? -/
def Xml.hasBadDate : Xml → Bool
  | .elem t as ks => isBadDate (.start t as) || anyBadDate ks
/-- The same for a list of elements. -/
def anyBadDate : List Xml → Bool
  | [] => false
  | x :: xs => x.hasBadDate || anyBadDate xs
end

/-- Start tags of attributes that can be read. -/
def pushes : Sax → Nat
  | .start t as => if lower t ∈ attrTags ∧ isBadDate (.start t as) = false then 1 else 0
  | .stop _ => 0

/-- End tags of attributes. -/
def pops : Sax → Nat
  | .start .. => 0
  | .stop t => if lower t ∈ attrTags then 1 else 0

theorem readVal_none {tag value : Str} : readVal (F := F) tag value = .ok none ↔
    tag = py!"date" ∧ parseDateTime value = .ok none := by
  unfold readVal
  constructor
  · intro h
    split at h
    · simp at h
    · split at h
      · rename_i ht
        refine ⟨ht, ?_⟩
        split at h
        · simp at h
        · assumption
        · simp at h
      · repeat' split at h
        all_goals simp at h
  · rintro ⟨h1, h2⟩
    subst h1
    simp [h2]

/-- The value an element's text attributes give in the handler. -/
theorem elemValue_eq (as : List (Str × Str)) : (match dget py!"value" as with
    | some v => v
    | none => []) = elemValue as := by
  unfold elemValue; cases dget py!"value" as <;> rfl

theorem elemKey_eq (as : List (Str × Str)) : (match dget py!"key" as with
    | some v => v
    | none => py!"UNKNOWN") = elemKey as := by
  unfold elemKey; cases dget py!"key" as <;> rfl

/-- The handler on an attribute start tag. -/
theorem xesStart_attr (fac : Factory F) (mgr : ExtMgr) (st : XesSt F) {t : Str} {as : List (Str × Str)}
    (ht : lower t ∈ attrTags) : xesStart fac mgr st t as = (readVal (lower t) (elemValue as) >>= fun
      | none => .ok st
      | some (k, v) =>
        .ok { st with
          heap := (fac.newAttr st.heap k (elemKey as) (extOfKey mgr (elemKey as)) v).2
          attrs := (fac.newAttr st.heap k (elemKey as) (extOfKey mgr (elemKey as)) v).1 :: st.attrs
          objs := (fac.newAttr st.heap k (elemKey as) (extOfKey mgr (elemKey as)) v).1 :: st.objs }) := by
  simp only [xesStart, ht, not_true, if_false]
  cases h1 : dget py!"value" as <;> cases h2 : dget py!"key" as <;> simp only [elemValue, elemKey, h1, h2] <;> rfl

/-- Outside attribute elements the attribute stack does not change. -/
theorem step_attrs {fac : Factory F} {mgr : ExtMgr} {st st' : XesSt F} {e : Sax} (h : xesStep fac mgr st e = .ok st') :
    st'.attrs.length + pops e = st.attrs.length + pushes e := by
  cases e with
  | start t as =>
    simp only [xesStep] at h
    by_cases ht : lower t ∈ attrTags
    · rw [xesStart_attr fac mgr st ht] at h
      obtain ⟨o, h1, h⟩ := bind_ok.1 h
      cases o with
      | none =>
        obtain ⟨e1, e2⟩ := readVal_none.1 h1
        simp only [Except.ok.injEq] at h
        subst h
        simp [pops, pushes, isBadDate, e1, e2]
      | some kv =>
        simp only [Except.ok.injEq] at h
        subst h
        have : isBadDate (.start t as) = false := by
          simp only [isBadDate, Bool.and_eq_false_iff, decide_eq_false_iff_not]
          by_cases hd : lower t = py!"date"
          · right
            split
            · rename_i e
              rw [readVal_none.2 ⟨hd, e⟩] at h1
              simp at h1
            · rfl
          · exact Or.inl hd
        simp [pops, pushes, this, ht]
    · have hp : pushes (.start t as) = 0 := by simp [pushes, ht]
      rw [hp]
      simp only [pops, Nat.add_zero]
      simp only [xesStart, ht, not_false_eq_true, if_true] at h
      repeat' split at h
      all_goals first
        | (simp only [Except.ok.injEq] at h; subst h; rfl)
        | (simp at h; done)
        | (obtain ⟨_, _, h⟩ := bind_ok.1 h
           first
             | (simp only [Except.ok.injEq] at h; subst h; rfl)
             | (split at h
                · obtain ⟨_, _, h⟩ := bind_ok.1 h
                  simp only [Except.ok.injEq] at h; subst h; rfl
                · simp only [Except.ok.injEq] at h; subst h; rfl
                · simp at h))
  | stop t =>
    simp only [xesStep, xesStop] at h
    by_cases hg : lower t = py!"global"
    · have : lower t ∉ attrTags := mem_of_eq hg (by decide)
      simp only [hg, if_true, Except.ok.injEq] at h
      subst h
      simp [pops, pushes, this]
    · simp only [hg, if_false] at h
      by_cases ht : lower t ∈ attrTags
      · simp only [ht, not_true, if_false] at h
        split at h
        · simp at h
        · rename_i i as ha
          split at h
          · simp at h
          · split at h
            · obtain ⟨_, _, h⟩ := bind_ok.1 h
              simp only [Except.ok.injEq] at h
              subst h
              simp [pops, pushes, ha, ht]
            · split at h
              · simp at h
              · obtain ⟨_, _, h⟩ := bind_ok.1 h
                obtain ⟨_, _, h⟩ := bind_ok.1 h
                obtain ⟨_, _, h⟩ := bind_ok.1 h
                simp only [Except.ok.injEq] at h
                subst h
                simp [pops, pushes, ha, ht]
      · simp only [ht, not_false_eq_true, if_true] at h
        have hp : pops (.stop t) = 0 := by simp [pops, ht]
        rw [hp]
        simp only [pushes, Nat.add_zero]
        repeat' split at h
        all_goals first
          | (simp only [Except.ok.injEq] at h; subst h; rfl)
          | (simp at h; done)
          | (obtain ⟨_, _, h⟩ := bind_ok.1 h
             first
               | (simp at h; done)
               | (simp only [Except.ok.injEq] at h; subst h; rfl))

theorem run_attrs {fac : Factory F} {mgr : ExtMgr} : ∀ {evs : List Sax} {st st' : XesSt F}, xesRun fac mgr st evs = .ok st' →
    st'.attrs.length + (evs.map pops).sum = st.attrs.length + (evs.map pushes).sum := by
  intro evs
  induction evs with
  | nil => intro st st' h; simp only [xesRun, Except.ok.injEq] at h; subst h; rfl
  | cons e es ih =>
    intro st st' h
    obtain ⟨s, h1, h2⟩ := bind_ok.1 h
    have a := step_attrs h1
    have b := ih h2
    simp only [List.map_cons, List.sum_cons]
    omega

mutual
theorem sax_counts : ∀ (x : Xml), (x.sax.map pushes).sum + (if x.hasBadDate then 1 else 0) ≤ (x.sax.map pops).sum
  | .elem t as ks => by
    have := saxList_counts ks
    have hd : isBadDate (.start t as) = true → lower t ∈ attrTags := by
      intro h
      simp only [isBadDate, Bool.and_eq_true, decide_eq_true_eq] at h
      rw [h.1]; decide
    simp only [Xml.sax, List.map_cons, List.map_append, List.sum_cons, List.sum_append, List.map_nil, List.sum_nil,
      Xml.hasBadDate, Bool.or_eq_true]
    have e1 : pushes (.stop t) = 0 := rfl
    have e2 : pops (.start t as) = 0 := rfl
    rw [e1, e2]
    by_cases ht : lower t ∈ attrTags
    · have e3 : pops (.stop t) = 1 := by simp [pops, ht]
      rw [e3]
      cases hb : isBadDate (.start t as) with
      | true =>
        have e4 : pushes (.start t as) = 0 := by simp [pushes, hb]
        rw [e4]; simp; split at this <;> omega
      | false =>
        have e4 : pushes (.start t as) = 1 := by simp [pushes, hb, ht]
        rw [e4]; simp; split at this <;> simp_all <;> omega
    · have e3 : pops (.stop t) = 0 := by simp [pops, ht]
      have e4 : pushes (.start t as) = 0 := by simp [pushes, ht]
      rw [e3, e4]
      cases hb : isBadDate (.start t as) with
      | true => exact absurd (hd hb) ht
      | false => simp; split at this <;> simp_all
theorem saxList_counts : ∀ (xs : List Xml),
    ((saxList xs).map pushes).sum + (if anyBadDate xs then 1 else 0) ≤ ((saxList xs).map pops).sum
  | [] => by simp [saxList, anyBadDate]
  | x :: xs => by
    have h1 := sax_counts x
    have h2 := saxList_counts xs
    simp only [saxList, List.map_append, List.sum_append, anyBadDate, Bool.or_eq_true]
    split at h1 <;> split at h2 <;> simp_all <;> omega
end

/-- C44, refuted in the strongest form: no document that contains an unreadable date, at any place, can
be loaded; the handler always raises (its end tag takes an attribute off the stack that it never put
there). -/
theorem c44_bad_date_refuted (given : Option (Factory F)) (reg : Factory F) (mgr : ExtMgr) (h : Heap F) {x : Xml}
    (hx : x.hasBadDate = true) : ∃ e, xesParse given reg mgr h x.sax = .error e := by
  cases hp : xesParse given reg mgr h x.sax with
  | error e => exact ⟨e, rfl⟩
  | ok r =>
    exfalso
    obtain ⟨st, hst, _⟩ := bind_ok.1 hp
    have h1 := run_attrs hst
    have h2 := sax_counts x
    simp only [hx, if_true, XesSt.init, List.length_nil] at h1 h2
    omega

end

/-- Such a document: an event with a good attribute and a bad date. -/
example : (Xml.elem py!"log" [] [.elem py!"trace" [] [.elem py!"event" [] [
    .elem py!"string" [(py!"key", py!"concept:name"), (py!"value", py!"a")] [],
    .elem py!"date" [(py!"key", py!"time:timestamp"), (py!"value", py!"yesterday")] []]]]).hasBadDate = true := by
  decide +kernel

/-- ... and the kind of exception it raises here. -/
example : (match xesParse (F := ToyFloat) none (stdFactory ToyFloat fun _ => 0) noExts ⟨[], 0⟩
    (Xml.elem py!"log" [] [.elem py!"trace" [] [.elem py!"event" [] [
    .elem py!"date" [(py!"key", py!"time:timestamp"), (py!"value", py!"yesterday")] []]]]).sax with
    | .error e => some e
    | .ok _ => none) = some .indexError := by decide +kernel

section
variable {F : Type} [PyFloat F]

/-! ## C42: order and number of traces and events -/

mutual
/-- No log, trace or event element inside. -/
def Xml.noModel : Xml → Bool
  | .elem t _ ks => lower t ≠ py!"log" && lower t ≠ py!"trace" && lower t ≠ py!"event" && allNoModel ks
/-- The same for a list of elements. -/
def allNoModel : List Xml → Bool
  | [] => true
  | x :: xs => x.noModel && allNoModel xs
end

/-- An event element with anything but logs, traces and events inside. -/
def Xml.isEvent : Xml → Bool
  | .elem t _ ks => lower t = py!"event" && allNoModel ks

/-- A trace element: events and anything else in any order. -/
def Xml.isTrace : Xml → Bool
  | .elem t _ ks => lower t = py!"trace" && ks.all fun x => x.isEvent || x.noModel

/-- A log element: traces and anything else in any order. -/
def Xml.isLog : Xml → Bool
  | .elem t _ ks => lower t = py!"log" && ks.all fun x => x.isTrace || x.noModel

/-- Child elements. -/
def Xml.kids : Xml → List Xml
  | .elem _ _ ks => ks

/-- Trace, log and event objects at references in `P` stay what they are; logs keep their traces and
features. -/
structure Stays (P : Ref → Prop) (h h' : Heap F) : Prop where
  size : h.size ≤ h'.size
  trace : ∀ r m es, P r → h.get r = some (.trace m es) → h'.get r = some (.trace m es)
  event : ∀ r u m, P r → h.get r = some (.event u m) → h'.get r = some (.event u m)
  log : ∀ r o, P r → h.get r = some (.log o) → ∃ o', h'.get r = some (.log o') ∧ o'.traces = o.traces ∧ o'.features = o.features

theorem Stays.refl (P : Ref → Prop) (h : Heap F) : Stays P h h :=
  ⟨Nat.le_refl _, fun _ _ _ _ h => h, fun _ _ _ _ h => h, fun _ o _ h => ⟨o, h, rfl, rfl⟩⟩

theorem Stays.trans {P : Ref → Prop} {h h' h'' : Heap F} (a : Stays P h h') (b : Stays P h' h'') : Stays P h h'' := by
  refine ⟨Nat.le_trans a.size b.size, fun r m es hp hg => b.trace r m es hp (a.trace r m es hp hg),
    fun r u m hp hg => b.event r u m hp (a.event r u m hp hg), fun r o hp hg => ?_⟩
  obtain ⟨o1, h1, e1, e2⟩ := a.log r o hp hg
  obtain ⟨o2, h2, e3, e4⟩ := b.log r o1 hp h1
  exact ⟨o2, h2, e3.trans e1, e4.trans e2⟩

theorem Stays.mono {P Q : Ref → Prop} {h h' : Heap F} (a : Stays P h h') (hq : ∀ r, Q r → P r) : Stays Q h h' :=
  ⟨a.size, fun r m es hp => a.trace r m es (hq r hp), fun r u m hp => a.event r u m (hq r hp),
    fun r o hp => a.log r o (hq r hp)⟩

theorem Stays.append (P : Ref → Prop) (h : Heap F) (os : List (Obj F)) (d : Nat) : Stays P h ⟨h.objs ++ os, d⟩ := by
  have key : ∀ {r o}, h.get r = some o → (⟨h.objs ++ os, d⟩ : Heap F).get r = some o := by
    intro r o hg
    rw [get_append_left (get_lt hg)]; exact hg
  exact ⟨by simp [Heap.size], fun _ _ _ _ h => key h, fun _ _ _ _ h => key h, fun _ o _ h => ⟨o, key h, rfl, rfl⟩⟩

theorem Stays.put {P : Ref → Prop} {h : Heap F} {x : Ref} (o : Obj F) (hx : ¬ P x) : Stays P h (h.put x o) := by
  have key : ∀ {r o'}, P r → h.get r = some o' → (h.put x o).get r = some o' := by
    intro r o' hp hg
    rw [get_put_ne _ (by rintro rfl; exact hx hp)]; exact hg
  exact ⟨by simp, fun _ _ _ hp h => key hp h, fun _ _ _ hp h => key hp h, fun _ o _ h => ⟨o, key ‹_› h, rfl, rfl⟩⟩

theorem Stays.putOther {P : Ref → Prop} {h : Heap F} {x : Ref} {o : Obj F} (o' : Obj F) (hx : h.get x = some o)
    (ho : (∃ d, o = .map d) ∨ isAttrObj o = true) : Stays P h (h.put x o') := by
  have key : ∀ {r o2}, h.get r = some o2 → r ≠ x → (h.put x o').get r = some o2 := by
    intro r o2 hg hr
    rw [get_put_ne _ hr]; exact hg
  refine ⟨by simp, fun r m es _ hg => key hg ?_, fun r u m _ hg => key hg ?_, fun r o2 _ hg => ⟨o2, key hg ?_, rfl, rfl⟩⟩
  all_goals
    rintro rfl
    rw [hx] at hg
    simp only [Option.some.injEq] at hg
    subst hg
    rcases ho with ⟨d, h⟩ | h
    · simp at h
    · simp [isAttrObj] at h

theorem Stays.putLog {P : Ref → Prop} {h : Heap F} {x : Ref} {o o' : LogObj} (hx : h.get x = some (.log o))
    (h1 : o'.traces = o.traces) (h2 : o'.features = o.features) : Stays P h (h.put x (.log o')) := by
  have key : ∀ {r o2}, h.get r = some o2 → r ≠ x → (h.put x (.log o')).get r = some o2 := by
    intro r o2 hg hr
    rw [get_put_ne _ hr]; exact hg
  refine ⟨by simp, fun r m es _ hg => key hg ?_, fun r u m _ hg => key hg ?_, fun r o2 _ hg => ?_⟩
  · rintro rfl; rw [hx] at hg; simp at hg
  · rintro rfl; rw [hx] at hg; simp at hg
  · by_cases e : r = x
    · subst e
      rw [hx] at hg
      simp only [Option.some.injEq, Obj.log.injEq] at hg
      subst hg
      exact ⟨o', get_put_self _ (get_lt hx), h1, h2⟩
    · exact ⟨o2, key hg e, rfl, rfl⟩

theorem modLog_stays {P : Ref → Prop} {h h' : Heap F} {l : Option Ref} {f : LogObj → LogObj}
    (hf : ∀ o, (f o).traces = o.traces ∧ (f o).features = o.features) (hm : modLog h l f = .ok h') : Stays P h h' := by
  unfold modLog at hm
  split at hm
  · simp at hm
  · split at hm
    · rename_i o hg
      simp only [Except.ok.injEq] at hm
      subst hm
      exact Stays.putLog hg (hf o).1 (hf o).2
    · simp at hm

theorem addToColl_stays {P : Ref → Prop} (h : Heap F) (as : List Ref) (i : Ref) : Stays P h (addToColl h as i) := by
  unfold addToColl
  split
  · exact Stays.refl _ _
  · split
    · rename_i hg
      split
      · exact Stays.putOther _ hg (Or.inr rfl)
      · exact Stays.refl _ _
    · exact Stays.refl _ _

/-- What the handler leaves alone between log, trace and event tags. -/
structure Calm (P : Ref → Prop) (s s' : XesSt F) : Prop where
  log : s'.log = s.log
  trace : s'.trace = s.trace
  event : s'.event = s.event
  heap : Stays P s.heap s'.heap

theorem step_calm {P : Ref → Prop} {rnd : Nat → Uuid} {mgr : ExtMgr} {st st' : XesSt F} {e : Sax}
    (h1 : lower e.tag ≠ py!"log") (h2 : lower e.tag ≠ py!"trace") (h3 : lower e.tag ≠ py!"event")
    (h : xesStep (stdFactory F rnd) mgr st e = .ok st') : Calm P st st' := by
  have same : Calm P st st := ⟨rfl, rfl, rfl, Stays.refl _ _⟩
  cases e with
  | start t as =>
    simp only [Sax.tag] at h1 h2 h3
    simp only [xesStep] at h
    by_cases ht : lower t ∈ attrTags
    · rw [xesStart_attr _ mgr st ht] at h
      obtain ⟨o, _, h⟩ := bind_ok.1 h
      cases o with
      | none =>
        simp only [Except.ok.injEq] at h
        subst h
        exact same
      | some kv =>
        simp only [stdFactory, newAttr_eq, Except.ok.injEq] at h
        subst h
        exact ⟨rfl, rfl, rfl, Stays.append _ _ _ _⟩
    · simp only [xesStart, ht, not_false_eq_true, if_true, h1, h2, h3, if_false] at h
      split at h
      · split at h
        all_goals
          obtain ⟨o, _, h⟩ := bind_ok.1 h
          split at h
          · obtain ⟨hp, hm, h⟩ := bind_ok.1 h
            simp only [Except.ok.injEq] at h
            subst h
            refine ⟨rfl, rfl, rfl, modLog_stays ?_ hm⟩
            exact fun _ => ⟨rfl, rfl⟩
          · simp only [Except.ok.injEq] at h
            subst h
            exact same
          · simp at h
      · split at h
        · split at h
          · simp at h
          · repeat' split at h
            all_goals first
              | (simp at h; done)
              | (simp only [Except.ok.injEq] at h; subst h; exact ⟨rfl, rfl, rfl, Stays.refl _ _⟩)
        · split at h
          · split at h
            · split at h
              · obtain ⟨hp, hm, h⟩ := bind_ok.1 h
                simp only [Except.ok.injEq] at h
                subst h
                refine ⟨rfl, rfl, rfl, modLog_stays ?_ hm⟩
                exact fun _ => ⟨rfl, rfl⟩
              · simp only [Except.ok.injEq] at h
                subst h
                exact same
            · simp only [Except.ok.injEq] at h
              subst h
              exact same
          · simp only [Except.ok.injEq] at h
            subst h
            exact same
  | stop t =>
    simp only [Sax.tag] at h1 h2 h3
    simp only [xesStep, xesStop] at h
    split at h
    · simp only [Except.ok.injEq] at h
      subst h
      exact ⟨rfl, rfl, rfl, Stays.refl _ _⟩
    · by_cases ht : lower t ∈ attrTags
      case neg =>
        simp only [ht, not_false_eq_true, if_true, Except.ok.injEq] at h
        subst h
        exact same
      case pos =>
        simp only [ht, not_true, if_false] at h
        split at h
        · simp at h
        · split at h
          · simp at h
          · split at h
            · obtain ⟨hp, hm, h⟩ := bind_ok.1 h
              simp only [Except.ok.injEq] at h
              subst h
              refine ⟨rfl, rfl, rfl, modLog_stays ?_ hm⟩
              intro o
              split <;> exact ⟨rfl, rfl⟩
            · split at h
              · simp at h
              · obtain ⟨m, _, h⟩ := bind_ok.1 h
                obtain ⟨k, _, h⟩ := bind_ok.1 h
                obtain ⟨h3, hm, h⟩ := bind_ok.1 h
                simp only [Except.ok.injEq] at h
                subst h
                refine ⟨rfl, rfl, rfl, Stays.trans ?_ (addToColl_stays _ _ _)⟩
                unfold mapSet at hm
                split at hm
                · rename_i d hd
                  simp only [Except.ok.injEq] at hm
                  subst hm
                  exact Stays.putOther _ hd (Or.inl ⟨_, rfl⟩)
                · simp at hm

theorem Calm.trans {P : Ref → Prop} {s s' s'' : XesSt F} (a : Calm P s s') (b : Calm P s' s'') : Calm P s s'' :=
  ⟨b.log.trans a.log, b.trace.trans a.trace, b.event.trans a.event, a.heap.trans b.heap⟩

theorem run_append_inv {fac : Factory F} {mgr : ExtMgr} {st s' : XesSt F} {xs ys : List Sax}
    (h : xesRun fac mgr st (xs ++ ys) = .ok s') : ∃ s, xesRun fac mgr st xs = .ok s ∧ xesRun fac mgr s ys = .ok s' := by
  rw [xesRun_append] at h
  exact bind_ok.1 h

theorem run_single {fac : Factory F} {mgr : ExtMgr} {st s' : XesSt F} {x : Sax} (h : xesRun fac mgr st [x] = .ok s') :
    xesStep fac mgr st x = .ok s' := by
  obtain ⟨s, h1, h2⟩ := bind_ok.1 h
  simp only [xesRun, Except.ok.injEq] at h2
  rw [← h2]; exact h1

theorem elem_inv {fac : Factory F} {mgr : ExtMgr} {st s' : XesSt F} {t : Str} {as : List (Str × Str)} {ks : List Xml}
    (h : xesRun fac mgr st (Xml.elem t as ks).sax = .ok s') : ∃ s1 s2, xesStep fac mgr st (.start t as) = .ok s1 ∧
      xesRun fac mgr s1 (saxList ks) = .ok s2 ∧ xesStep fac mgr s2 (.stop t) = .ok s' := by
  simp only [Xml.sax] at h
  obtain ⟨s1, h1, h⟩ := bind_ok.1 h
  obtain ⟨s2, h2, h3⟩ := run_append_inv h
  exact ⟨s1, s2, h1, h2, run_single h3⟩

mutual
theorem noModel_calm {P : Ref → Prop} {rnd : Nat → Uuid} {mgr : ExtMgr} : ∀ (x : Xml) {st st' : XesSt F}, x.noModel = true →
    xesRun (stdFactory F rnd) mgr st x.sax = .ok st' → Calm P st st'
  | .elem t as ks, st, st', hn, h => by
    simp only [Xml.noModel, Bool.and_eq_true, decide_eq_true_eq] at hn
    obtain ⟨⟨⟨n1, n2⟩, n3⟩, n4⟩ := hn
    obtain ⟨s1, s2, h1, h2, h3⟩ := elem_inv h
    exact ((step_calm (by exact n1) (by exact n2) (by exact n3) h1).trans (allNoModel_calm ks n4 h2)).trans
      (step_calm (by exact n1) (by exact n2) (by exact n3) h3)
theorem allNoModel_calm {P : Ref → Prop} {rnd : Nat → Uuid} {mgr : ExtMgr} : ∀ (xs : List Xml) {st st' : XesSt F},
    allNoModel xs = true → xesRun (stdFactory F rnd) mgr st (saxList xs) = .ok st' → Calm P st st'
  | [], st, st', _, h => by
    simp only [saxList, xesRun, Except.ok.injEq] at h
    subst h
    exact ⟨rfl, rfl, rfl, Stays.refl _ _⟩
  | x :: xs, st, st', hn, h => by
    simp only [allNoModel, Bool.and_eq_true] at hn
    simp only [saxList] at h
    obtain ⟨s, h1, h2⟩ := run_append_inv h
    exact (noModel_calm x hn.1 h1).trans (allNoModel_calm xs hn.2 h2)
end

/-- An event element that loads appends one new event to the current trace. -/
theorem event_appended {rnd : Nat → Uuid} {mgr : ExtMgr} {x : Xml} {st st' : XesSt F} {tr m : Ref} {es : List Ref}
    (hx : x.isEvent = true) (h : xesRun (stdFactory F rnd) mgr st x.sax = .ok st') (htr : st.trace = some tr)
    (hg : st.heap.get tr = some (.trace m es)) : ∃ e u me, st'.heap.get tr = some (.trace m (es ++ [e])) ∧
      st'.log = st.log ∧ st'.trace = st.trace ∧ st.heap.size ≤ e ∧ st'.heap.get e = some (.event u me) ∧
      Stays (· ≠ tr) st.heap st'.heap := by
  obtain ⟨t, as, ks⟩ := x
  simp only [Xml.isEvent, Bool.and_eq_true, decide_eq_true_eq] at hx
  obtain ⟨ht, hn⟩ := hx
  obtain ⟨s1, s2, h1, h2, h3⟩ := elem_inv h
  have hnt : lower t ∉ attrTags := mem_of_eq ht (by decide)
  have hng : lower t ≠ py!"global" := by rw [ht]; decide
  simp only [xesStep, xesStart, hnt, not_false_eq_true, if_true] at h1
  simp only [ht, if_true, stdFactory, createEvent_none, Except.ok.injEq] at h1
  subst h1
  have hc := allNoModel_calm (P := fun _ => True) ks hn h2
  obtain ⟨c1, c2, c3, c4⟩ := hc
  simp only at c1 c2 c3 c4
  simp only [xesStep, xesStop, hng, if_false, hnt, not_false_eq_true, if_true] at h3
  simp only [ht, if_true, c2, c3, htr] at h3
  obtain ⟨h4, ha, h3⟩ := bind_ok.1 h3
  split at h3
  · simp at h3
  · simp only [Except.ok.injEq] at h3
    subst h3
    have hlt := get_lt hg
    have hg1 := (Stays.append (fun _ => True) st.heap [.map [], .map [], .event (rnd st.heap.drawn) (st.heap.size + 1)]
      (st.heap.drawn + 1)).trace tr m es trivial hg
    have hg2 := c4.trace tr m es trivial hg1
    have he1 : (⟨st.heap.objs ++ [.map [], .map [], .event (rnd st.heap.drawn) (st.heap.size + 1)], st.heap.drawn + 1⟩ :
      Heap F).get (st.heap.size + 2) = some (.event (rnd st.heap.drawn) (st.heap.size + 1)) := get_append_right (h := st.heap) 2
    have he2 := c4.event _ _ _ trivial he1
    unfold traceAppend at ha
    rw [hg2] at ha
    simp only [Except.ok.injEq] at ha
    subst ha
    refine ⟨st.heap.size + 2, rnd st.heap.drawn, st.heap.size + 1, get_put_self _ (get_lt hg2), c1, htr.symm, by omega, ?_, ?_⟩
    · simp only
      rw [get_put_ne _ (by omega)]
      exact he2
    · exact ((Stays.append _ _ _ _).trans (c4.mono fun _ _ => trivial)).trans (Stays.put _ (by simp))

/-- The children of a trace element. -/
theorem trace_kids {rnd : Nat → Uuid} {mgr : ExtMgr} : ∀ (xs : List Xml) {st st' : XesSt F} {tr m : Ref} {es : List Ref},
    (xs.all fun x => x.isEvent || x.noModel) = true → xesRun (stdFactory F rnd) mgr st (saxList xs) = .ok st' →
    st.trace = some tr → st.heap.get tr = some (.trace m es) →
    ∃ new, st'.heap.get tr = some (.trace m (es ++ new)) ∧ new.length = (xs.filter Xml.isEvent).length ∧
      (∀ e ∈ new, st.heap.size ≤ e ∧ ∃ u me, st'.heap.get e = some (.event u me)) ∧ new.Pairwise (· < ·) ∧
      st'.log = st.log ∧ st'.trace = st.trace ∧ Stays (· ≠ tr) st.heap st'.heap := by
  intro xs
  induction xs with
  | nil =>
    intro st st' tr m es _ h htr hg
    simp only [saxList, xesRun, Except.ok.injEq] at h
    subst h
    exact ⟨[], by simpa using hg, rfl, by simp, List.Pairwise.nil, rfl, rfl, Stays.refl _ _⟩
  | cons x xs ih =>
    intro st st' tr m es hall h htr hg
    simp only [List.all_cons, Bool.and_eq_true] at hall
    obtain ⟨hx, hxs⟩ := hall
    simp only [saxList] at h
    obtain ⟨s, h1, h2⟩ := run_append_inv h
    by_cases he : x.isEvent = true
    · obtain ⟨e, u, me, a1, a2, a3, a4, a5, a6⟩ := event_appended he h1 htr hg
      obtain ⟨new, b1, b2, b3, b4, b5, b6, b7⟩ := ih hxs h2 (a3.trans htr) a1
      have hlt : e < s.heap.size := get_lt a5
      refine ⟨e :: new, by rw [b1]; simp, by simp [he, b2], ?_, ?_, b5.trans a2, b6.trans a3, a6.trans b7⟩
      · intro y hy
        rcases List.mem_cons.1 hy with rfl | hy
        · refine ⟨a4, u, me, b7.event _ _ _ ?_ a5⟩
          rintro rfl
          rw [a5] at a1
          simp at a1
        · have := b3 y hy
          exact ⟨by have := a6.size; omega, this.2⟩
      · refine List.Pairwise.cons (fun y hy => ?_) b4
        have := (b3 y hy).1
        omega
    · have hnm : x.noModel = true := by simpa [he] using hx
      have hc := noModel_calm (P := fun _ => True) x hnm h1
      have hg' := hc.heap.trace _ _ _ trivial hg
      obtain ⟨new, b1, b2, b3, b4, b5, b6, b7⟩ := ih hxs h2 (hc.trace.trans htr) hg'
      refine ⟨new, b1, by simp [he, b2], ?_, b4, b5.trans hc.log, b6.trans hc.trace, (hc.heap.mono fun _ _ => trivial).trans b7⟩
      intro y hy
      have := b3 y hy
      exact ⟨by have := hc.heap.size; omega, this.2⟩

/-- The object at `tr` is a trace with one event per event element of `x`, created in that order. -/
def MatchesTrace (h : Heap F) (x : Xml) (tr : Ref) : Prop :=
  ∃ m es, h.get tr = some (.trace m es) ∧ es.length = (x.kids.filter Xml.isEvent).length ∧ es.Pairwise (· < ·) ∧
    ∀ e ∈ es, ∃ u me, h.get e = some (.event u me)

theorem MatchesTrace.stays {h h' : Heap F} {x : Xml} {tr : Ref} (a : MatchesTrace h x tr) {l : Ref} {o : LogObj}
    (hl : h.get l = some (.log o)) (s : Stays (· ≠ l) h h') : MatchesTrace h' x tr := by
  obtain ⟨m, es, h1, h2, h3, h4⟩ := a
  refine ⟨m, es, s.trace _ _ _ (by rintro rfl; rw [hl] at h1; simp at h1) h1, h2, h3, fun e he => ?_⟩
  obtain ⟨u, me, hg⟩ := h4 e he
  exact ⟨u, me, s.event _ _ _ (by rintro rfl; rw [hl] at hg; simp at hg) hg⟩

/-- A trace element that loads appends one new trace to the log. -/
theorem trace_appended {rnd : Nat → Uuid} {mgr : ExtMgr} {x : Xml} {st st' : XesSt F} {l : Ref} {o : LogObj}
    (hx : x.isTrace = true) (h : xesRun (stdFactory F rnd) mgr st x.sax = .ok st') (hl : st.log = some l)
    (hg : st.heap.get l = some (.log o)) : ∃ tr o', st'.heap.get l = some (.log o') ∧ o'.traces = o.traces ++ [tr] ∧
      o'.features = o.features ∧ st'.log = st.log ∧ st.heap.size ≤ tr ∧ MatchesTrace st'.heap x tr ∧
      Stays (· ≠ l) st.heap st'.heap := by
  obtain ⟨t, as, ks⟩ := x
  simp only [Xml.isTrace, Bool.and_eq_true, decide_eq_true_eq] at hx
  obtain ⟨ht, hn⟩ := hx
  obtain ⟨s1, s2, h1, h2, h3⟩ := elem_inv h
  have hnt : lower t ∉ attrTags := mem_of_eq ht (by decide)
  have hne : lower t ≠ py!"event" := by rw [ht]; decide
  have hng : lower t ≠ py!"global" := by rw [ht]; decide
  simp only [xesStep, xesStart, hnt, not_false_eq_true, if_true, hne, if_false] at h1
  simp only [ht, if_true, stdFactory, createTrace_none, Except.ok.injEq] at h1
  subst h1
  have ht1 : (⟨st.heap.objs ++ [.map [], .map [], .trace (st.heap.size + 1) []], st.heap.drawn⟩ : Heap F).get
    (st.heap.size + 2) = some (.trace (st.heap.size + 1) []) := get_append_right (h := st.heap) 2
  obtain ⟨new, c1, c2, c3, c4, c5, c6, c7⟩ := trace_kids ks hn h2 rfl ht1
  simp only at c3 c5 c6 c7
  have s01 := Stays.append (· ≠ st.heap.size + 2) st.heap [.map [], .map [], .trace (st.heap.size + 1) []] st.heap.drawn
  have hlt := get_lt hg
  obtain ⟨o2, hg2, e1, e2⟩ := (s01.trans c7).log l o (by omega) hg
  simp only [xesStep, xesStop, hng, if_false, hnt, not_false_eq_true, if_true, hne] at h3
  simp only [ht, if_true, c5, c6, hl] at h3
  obtain ⟨h4, ha, h3⟩ := bind_ok.1 h3
  split at h3
  · simp at h3
  · simp only [Except.ok.injEq] at h3
    subst h3
    unfold logAppend at ha
    rw [hg2] at ha
    simp only [Except.ok.injEq] at ha
    subst ha
    refine ⟨st.heap.size + 2, { o2 with traces := o2.traces ++ [st.heap.size + 2] }, get_put_self _ (get_lt hg2),
      by simp [e1], e2, hl.symm, by omega, ?_, ?_⟩
    · have : MatchesTrace s2.heap (Xml.elem t as ks) (st.heap.size + 2) :=
        ⟨st.heap.size + 1, new, by simpa using c1, c2, c4, fun e he => (c3 e he).2⟩
      exact this.stays hg2 (Stays.put _ (by simp))
    · -- the new trace is not below the old size, so nothing old is lost
      have key : ∀ r ob, st.heap.get r = some ob → r ≠ st.heap.size + 2 := fun r ob hr => by have := get_lt hr; omega
      have s02 := s01.trans c7
      have sp : Stays (· ≠ l) s2.heap (s2.heap.put l (.log { o2 with traces := o2.traces ++ [st.heap.size + 2] })) :=
        Stays.put _ (by simp)
      refine ⟨by have := s02.size; simpa using this, ?_, ?_, ?_⟩
      · intro r m es hp hr
        exact sp.trace _ _ _ hp (s02.trace _ _ _ (key _ _ hr) hr)
      · intro r u m hp hr
        exact sp.event _ _ _ hp (s02.event _ _ _ (key _ _ hr) hr)
      · intro r o1 hp hr
        obtain ⟨o3, q1, q2, q3⟩ := s02.log _ _ (key _ _ hr) hr
        obtain ⟨o4, q4, q5, q6⟩ := sp.log _ _ hp q1
        exact ⟨o4, q4, q5.trans q2, q6.trans q3⟩

/-- The children of a log element. -/
theorem log_kids {rnd : Nat → Uuid} {mgr : ExtMgr} : ∀ (xs : List Xml) {st st' : XesSt F} {l : Ref} {o : LogObj},
    (xs.all fun x => x.isTrace || x.noModel) = true → xesRun (stdFactory F rnd) mgr st (saxList xs) = .ok st' →
    st.log = some l → st.heap.get l = some (.log o) →
    ∃ new o', st'.heap.get l = some (.log o') ∧ o'.traces = o.traces ++ new ∧ o'.features = o.features ∧ st'.log = st.log ∧
      DenAll (MatchesTrace st'.heap) (xs.filter Xml.isTrace) new ∧ (∀ t ∈ new, st.heap.size ≤ t) ∧ new.Pairwise (· < ·) ∧
      Stays (· ≠ l) st.heap st'.heap := by
  intro xs
  induction xs with
  | nil =>
    intro st st' l o _ h hl hg
    simp only [saxList, xesRun, Except.ok.injEq] at h
    subst h
    exact ⟨[], o, hg, by simp, rfl, rfl, by simp [DenAll], by simp, List.Pairwise.nil, Stays.refl _ _⟩
  | cons x xs ih =>
    intro st st' l o hall h hl hg
    simp only [List.all_cons, Bool.and_eq_true] at hall
    obtain ⟨hx, hxs⟩ := hall
    simp only [saxList] at h
    obtain ⟨s, h1, h2⟩ := run_append_inv h
    by_cases he : x.isTrace = true
    · obtain ⟨tr, o1, a1, a2, a3, a4, a5, a6, a7⟩ := trace_appended he h1 hl hg
      obtain ⟨new, o2, b1, b2, b3, b4, b5, b6, b7, b8⟩ := ih hxs h2 (a4.trans hl) a1
      have hlt : tr < s.heap.size := by
        obtain ⟨m, es, hg, _⟩ := a6
        exact get_lt hg
      refine ⟨tr :: new, o2, b1, by rw [b2, a2]; simp, b3.trans a3, b4.trans a4, ?_, ?_, ?_, a7.trans b8⟩
      · simp only [List.filter_cons, he, if_true, DenAll]
        exact ⟨tr, new, rfl, a6.stays a1 b8, b5⟩
      · intro y hy
        rcases List.mem_cons.1 hy with rfl | hy
        · exact a5
        · have := b6 y hy
          have := a7.size
          omega
      · refine List.Pairwise.cons (fun y hy => ?_) b7
        have := b6 y hy
        omega
    · have hnm : x.noModel = true := by simpa [he] using hx
      have hc := noModel_calm (P := fun _ => True) x hnm h1
      obtain ⟨o1, hg', e1, e2⟩ := hc.heap.log _ _ trivial hg
      obtain ⟨new, o2, b1, b2, b3, b4, b5, b6, b7, b8⟩ := ih hxs h2 (hc.log.trans hl) hg'
      refine ⟨new, o2, b1, by rw [b2, e1], b3.trans e2, b4.trans hc.log, ?_, ?_, b7, (hc.heap.mono fun _ _ => trivial).trans b8⟩
      · simpa [List.filter_cons, he] using b5
      · intro y hy
        have := b6 y hy
        have := hc.heap.size
        omega

/-- Loading a log element: the object created for it and how the rest relates to it. -/
theorem log_loaded {rnd : Nat → Uuid} {mgr : ExtMgr} {x : Xml} (hx : x.isLog = true) {given : Option (Factory F)} {h h' : Heap F}
    {ol : Option Ref} (hp : xesParse given (stdFactory F rnd) mgr h x.sax = .ok (ol, h')) :
    ∃ l o, ol = some l ∧ h'.get l = some (.log o) ∧ DenAll (MatchesTrace h') (x.kids.filter Xml.isTrace) o.traces ∧
      o.traces.Pairwise (· < ·) ∧ ∀ t as ks, x = .elem t as ks → o.features = readFeatures as := by
  obtain ⟨st, hst, hr⟩ := bind_ok.1 hp
  simp only [Except.ok.injEq, Prod.mk.injEq] at hr
  obtain ⟨rfl, rfl⟩ := hr
  obtain ⟨t, as, ks⟩ := x
  simp only [Xml.isLog, Bool.and_eq_true, decide_eq_true_eq] at hx
  obtain ⟨ht, hn⟩ := hx
  obtain ⟨s1, s2, h1, h2, h3⟩ := elem_inv hst
  have hnt : lower t ∉ attrTags := mem_of_eq ht (by decide)
  have hne : lower t ≠ py!"event" := by rw [ht]; decide
  have hntr : lower t ≠ py!"trace" := by rw [ht]; decide
  have hng : lower t ≠ py!"global" := by rw [ht]; decide
  simp only [xesStep, xesStart, hnt, not_false_eq_true, if_true, hne, hntr, if_false] at h1
  simp only [ht, if_true, stdFactory, createLog_none, XesSt.init] at h1
  have hg0 : (⟨h.objs ++ [.map [], .map [], .log ⟨h.size + 1, [], [], [], [], [], []⟩], h.drawn⟩ : Heap F).get
    (h.size + 2) = some (.log ⟨h.size + 1, [], [], [], [], [], []⟩) := get_append_right (h := h) 2
  simp only [modLog, hg0, bind, Except.bind, Except.ok.injEq] at h1
  subst h1
  obtain ⟨new, o, c1, c2, c3, c4, c5, c6, c7, c8⟩ := log_kids ks hn h2 rfl (get_put_self _ (get_lt hg0))
  have hstop : st.log = s2.log ∧ st.heap = s2.heap := by
    simp only [xesStep, xesStop, hng, if_false, hnt, not_false_eq_true, if_true, hne, hntr] at h3
    simp only [ht, if_true] at h3
    split at h3
    · simp at h3
    · simp only [Except.ok.injEq] at h3
      subst h3
      exact ⟨rfl, rfl⟩
  rw [hstop.1, hstop.2]
  simp only [List.nil_append] at c2
  refine ⟨h.size + 2, o, c4, c1, by rw [c2]; exact c5, by rw [c2]; exact c7, ?_⟩
  rintro _ _ _ ⟨⟩
  rw [c3]
  rfl

/-- C42: if a document of one log element loads at all, then whatever its attributes are and whatever
else is between the tags, the loaded log has exactly one trace per trace element and each of these
traces exactly one event per event element, in document order (traces and events are created at
their start tags, and references grow with creation). -/
theorem c42_order_and_number {rnd : Nat → Uuid} {mgr : ExtMgr} {x : Xml} (hx : x.isLog = true) {given : Option (Factory F)}
    {h h' : Heap F} {ol : Option Ref} (hp : xesParse given (stdFactory F rnd) mgr h x.sax = .ok (ol, h')) :
    ∃ l o, ol = some l ∧ h'.get l = some (.log o) ∧ DenAll (MatchesTrace h') (x.kids.filter Xml.isTrace) o.traces ∧
      o.traces.Pairwise (· < ·) := by
  obtain ⟨l, o, h1, h2, h3, h4, _⟩ := log_loaded hx hp
  exact ⟨l, o, h1, h2, h3, h4⟩

/-- The numbers, spelled out. -/
theorem c42_count {h : Heap F} : ∀ {xs : List Xml} {ts : List Ref}, DenAll (MatchesTrace h) xs ts → ts.length = xs.length
  | [], ts, hd => by simp only [DenAll] at hd; subst hd; rfl
  | x :: xs, ts, hd => by
    obtain ⟨r, rs, rfl, _, h2⟩ := hd
    simp [c42_count h2]

end

/-- How many events each trace of the loaded log has. -/
def loadedShape {F : Type} (r : Except PyErr (Option Ref × Heap F)) : Option (List Nat) :=
  match r with
  | .ok (some l, h) => match h.get l with
    | some (.log o) => some (o.traces.map fun t => match h.get t with
      | some (.trace _ es) => es.length
      | _ => 99)
    | _ => none
  | _ => none

/-- A document with attributes between and inside the elements, unknown elements, and an empty trace. -/
def shapeDoc : Xml :=
  .elem py!"log" [] [
    .elem py!"extension" [(py!"prefix", py!"concept"), (py!"uri", py!"u")] [],
    .elem py!"trace" [] [
      .elem py!"event" [] [.elem py!"list" [(py!"key", py!"l")] [.elem py!"int" [(py!"key", py!"n"), (py!"value", py!"3")] []]],
      .elem py!"string" [(py!"key", py!"concept:name"), (py!"value", py!"x")] [],
      .elem py!"event" [] []],
    .elem py!"comment" [] [.elem py!"string" [] []],
    .elem py!"trace" [] [],
    .elem py!"trace" [] [.elem py!"event" [] []]]

example : shapeDoc.isLog = true := by decide +kernel
example : loadedShape (xesParse (F := ToyFloat) none (stdFactory ToyFloat fun _ => 0) noExts ⟨[], 0⟩ shapeDoc.sax) =
    some [2, 0, 1] := by decide +kernel

section
variable {F : Type} [PyFloat F]

/-! ## C46: features -/

/-- C46 (first half): the features of a loaded log are exactly the attributes of the log element whose
names start with "xes." or "openxes.", in order (attribute names of an element are distinct). -/
theorem c46_features {rnd : Nat → Uuid} {mgr : ExtMgr} {t : Str} {as : List (Str × Str)} {ks : List Xml}
    (hx : (Xml.elem t as ks).isLog = true) (has : (dkeys as).Nodup) {given : Option (Factory F)} {h h' : Heap F} {ol : Option Ref}
    (hp : xesParse given (stdFactory F rnd) mgr h (Xml.elem t as ks).sax = .ok (ol, h')) :
    ∃ l o, ol = some l ∧ h'.get l = some (.log o) ∧
      o.features = as.filter fun p => py!"xes.".isPrefixOf p.1 || py!"openxes.".isPrefixOf p.1 := by
  obtain ⟨l, o, h1, h2, _, _, h5⟩ := log_loaded hx hp
  refine ⟨l, o, h1, h2, ?_⟩
  rw [h5 t as ks rfl, readFeatures, foldl_dset_nodup]
  · rfl
  · simp only [dkeys, List.map_nil, List.nil_append]
    exact has.sublist (List.filter_sublist.map _)

end

example : loadedFeatures (xesParse (F := ToyFloat) none (stdFactory ToyFloat fun _ => 0) noExts ⟨[], 0⟩
    (Xml.elem py!"log" [(py!"xes.version", py!"1.0"), (py!"xmlns", py!"http"), (py!"openxes.version", py!"1")] []).sax) =
    some [(py!"xes.version", py!"1.0"), (py!"openxes.version", py!"1")] := by decide +kernel

end Opy
