import Verif.Props.Refuse
import Verif.Props.Api
import Verif.Props.Nones
/-
C153: which regular XES documents are refused when dates may be unreadable too.
-/
set_option linter.unusedSectionVars false
namespace Opy

section
variable {F : Type} [PyFloat F]

/-! ## Specification -/

/-- Going through the tags of a document with `n` attributes open: what ends it.  A date that cannot be
read opens nothing, but its end tag closes an attribute; when none is open, that is an IndexError. -/
inductive Trips (F : Type) [PyFloat F] (mgr : ExtMgr) : Nat → List Sax → PyErr → Prop
  | under {t : Str} {evs : List Sax} : lower t ∈ attrNames → Trips F mgr 0 (.stop t :: evs) .indexError
  | fault {n : Nat} {t : Str} {as : List (Str × Str)} {evs : List Sax} {e : PyErr} : Fault F mgr t as e → Trips F mgr n (.start t as :: evs) e
  | close {n : Nat} {t : Str} {evs : List Sax} {e : PyErr} : lower t ∈ attrNames → Trips F mgr n evs e → Trips F mgr (n + 1) (.stop t :: evs) e
  | lost {n : Nat} {t : Str} {as : List (Str × Str)} {evs : List Sax} {e : PyErr} : LostDate t as → Trips F mgr n evs e →
    Trips F mgr n (.start t as :: evs) e
  | start {n : Nat} {t : Str} {as : List (Str × Str)} {evs : List Sax} {e : PyErr} : CanRead F mgr t as → lower t ∈ attrNames →
    Trips F mgr (n + 1) evs e → Trips F mgr n (.start t as :: evs) e
  | other {n : Nat} {t : Str} {as : List (Str × Str)} {evs : List Sax} {e : PyErr} : CanRead F mgr t as → lower t ∉ attrNames →
    Trips F mgr n evs e → Trips F mgr n (.start t as :: evs) e
  | stop {n : Nat} {t : Str} {evs : List Sax} {e : PyErr} : lower t ∉ attrNames → Trips F mgr n evs e → Trips F mgr n (.stop t :: evs) e

/-! ## One ending only -/

theorem fault_unique {mgr : ExtMgr} {t : Str} {as : List (Str × Str)} {e e' : PyErr} (h : Fault F mgr t as e) (h' : Fault F mgr t as e') : e = e' := by
  have a := fault_start h (stdFactory F fun _ => 0) (.init ⟨[], 0⟩)
  have b := fault_start h' (stdFactory F fun _ => 0) (.init ⟨[], 0⟩)
  rw [a] at b
  cases b
  rfl

theorem lost_not_fault {mgr : ExtMgr} {t : Str} {as : List (Str × Str)} {e : PyErr} (h : LostDate t as) (h' : Fault F mgr t as e) : False := by
  have a := fault_start h' (stdFactory F fun _ => 0) (.init ⟨[], 0⟩)
  rw [xesStart_attr _ _ _ (by rw [h.1]; decide), ← xmlAttr_value, readVal_none.2 ⟨h.1, c124_none.2 h.2⟩] at a
  cases a

theorem Trips.unique {mgr : ExtMgr} {n : Nat} {evs : List Sax} {e e' : PyErr} (h : Trips F mgr n evs e) (h' : Trips F mgr n evs e') : e = e' := by
  induction h with
  | under ht =>
    cases h' with
    | under => rfl
    | stop hn => exact absurd ht hn
  | fault hf =>
    cases h' with
    | fault hf' => exact fault_unique hf hf'
    | lost hl => exact (lost_not_fault hl hf).elim
    | start hc => exact absurd hf (hc.1 _)
    | other hc => exact absurd hf (hc.1 _)
  | close ht _ ih =>
    cases h' with
    | close _ h => exact ih h
    | stop hn => exact absurd ht hn
  | lost hl _ ih =>
    cases h' with
    | fault hf => exact (lost_not_fault hl hf).elim
    | lost _ h => exact ih h
    | start hc => exact absurd hl hc.2
    | other hc => exact absurd hl hc.2
  | start hc ht _ ih =>
    cases h' with
    | fault hf => exact absurd hf (hc.1 _)
    | lost hl => exact absurd hl hc.2
    | start _ _ h => exact ih h
    | other _ hn => exact absurd ht hn
  | other hc ht _ ih =>
    cases h' with
    | fault hf => exact absurd hf (hc.1 _)
    | lost hl => exact absurd hl hc.2
    | start _ hn => exact absurd hn ht
    | other _ _ h => exact ih h
  | stop ht _ ih =>
    cases h' with
    | under hn => exact absurd hn ht
    | close hn => exact absurd hn ht
    | stop _ h => exact ih h

theorem Trips.more {mgr : ExtMgr} {n : Nat} {evs : List Sax} {e : PyErr} (h : Trips F mgr n evs e) (ys : List Sax) : Trips F mgr n (evs ++ ys) e := by
  induction h with
  | under ht => exact .under ht
  | fault hf => exact .fault hf
  | close ht _ ih => exact .close ht ih
  | lost hl _ ih => exact .lost hl ih
  | start hc ht _ ih => exact .start hc ht ih
  | other hc ht _ ih => exact .other hc ht ih
  | stop ht _ ih => exact .stop ht ih

/-- Without a faulty element it is an IndexError. -/
theorem Trips.index {mgr : ExtMgr} {n : Nat} {evs : List Sax} {e : PyErr} (h : Trips F mgr n evs e)
    (hf : ∀ t as e, .start t as ∈ evs → ¬ Fault F mgr t as e) : e = .indexError := by
  induction h with
  | under => rfl
  | fault h => exact absurd h (hf _ _ _ (by simp))
  | close _ _ ih => exact ih fun t as e hm => hf t as e (by simp [hm])
  | lost _ _ ih => exact ih fun t as e hm => hf t as e (by simp [hm])
  | start _ _ _ ih => exact ih fun t as e hm => hf t as e (by simp [hm])
  | other _ _ _ ih => exact ih fun t as e hm => hf t as e (by simp [hm])
  | stop _ _ ih => exact ih fun t as e hm => hf t as e (by simp [hm])

/-! ## Counting -/

theorem lost_iff {t : Str} {as : List (Str × Str)} : isBadDate (.start t as) = true ↔ LostDate t as := by
  simp only [isBadDate, LostDate, Bool.and_eq_true, decide_eq_true_eq, ← c124_none, xmlAttr_value]
  refine and_congr_right fun _ => ?_
  cases parseDateTime (elemValue as) with
  | error => simp
  | ok o => cases o <;> simp

theorem canRead_pushes {mgr : ExtMgr} {t : Str} {as : List (Str × Str)} (h : CanRead F mgr t as) :
    pushes (.start t as) = if lower t ∈ attrNames then 1 else 0 := by
  have : isBadDate (.start t as) = false := by
    cases hb : isBadDate (.start t as) with
    | false => rfl
    | true => exact absurd (lost_iff.1 hb) h.2
  simp only [pushes, this, and_true]
  rfl

/-- Starts of logs, traces and events, and of attributes that can be read. -/
def opens : Sax → Nat
  | .start t as => pushes (.start t as) + if lower t ∈ [py!"event", py!"trace", py!"log"] then 1 else 0
  | .stop _ => 0

/-- Ends of logs, traces, events and attributes. -/
def closes : Sax → Nat
  | .start .. => 0
  | .stop t => pops (.stop t) + if lower t ∈ [py!"event", py!"trace", py!"log"] then 1 else 0

theorem step_objs {fac : Factory F} {mgr : ExtMgr} {st st' : XesSt F} {e : Sax} (h : xesStep fac mgr st e = .ok st') :
    st'.objs.length + closes e = st.objs.length + opens e := by
  cases e with
  | start t as =>
    have ha := step_attrs h
    simp only [xesStep] at h
    by_cases ht : lower t ∈ attrTags
    · have hn : lower t ∉ [py!"event", py!"trace", py!"log"] := by
        intro hm
        simp only [List.mem_cons, List.not_mem_nil, or_false] at hm
        rcases hm with hm | hm | hm <;> (rw [hm] at ht; exact absurd ht (by decide))
      simp only [opens, closes, hn, if_false, Nat.add_zero]
      rw [xesStart_attr fac mgr st ht] at h
      obtain ⟨o, h1, h⟩ := bind_ok.1 h
      cases o with
      | none =>
        simp only [Except.ok.injEq] at h
        subst h
        simp only [pops] at ha
        omega
      | some kv =>
        simp only [Except.ok.injEq] at h
        subst h
        simp only [pops, List.length_cons] at ha ⊢
        omega
    · have hp : pushes (.start t as) = 0 := by simp [pushes, ht]
      simp only [opens, closes, hp, Nat.zero_add, Nat.add_zero]
      simp only [xesStart, ht, not_false_eq_true, if_true] at h
      by_cases h1 : lower t = py!"event"
      · simp only [h1, if_true, Except.ok.injEq] at h
        subst h
        simp [h1]
      by_cases h2 : lower t = py!"trace"
      · rw [if_neg h1, if_pos h2] at h
        simp only [Except.ok.injEq] at h
        subst h
        simp [h2]
      by_cases h3 : lower t = py!"log"
      · rw [if_neg h1, if_neg h2, if_pos h3] at h
        obtain ⟨_, _, h⟩ := bind_ok.1 h
        simp only [Except.ok.injEq] at h
        subst h
        simp [h3]
      have hn : lower t ∉ [py!"event", py!"trace", py!"log"] := by simp [h1, h2, h3]
      rw [if_neg h1, if_neg h2, if_neg h3] at h
      simp only [hn, if_false, Nat.add_zero]
      repeat' split at h
      all_goals first
        | (simp only [Except.ok.injEq] at h; subst h; rfl)
        | (simp at h; done)
        | (obtain ⟨_, _, h⟩ := bind_ok.1 h
           first
             | (simp only [Except.ok.injEq] at h; subst h; rfl)
             | (split at h
                · obtain ⟨_, _, h⟩ := bind_ok.1 h
                  simp only [Except.ok.injEq] at h; subst h; rfl
                · simp only [Except.ok.injEq] at h; subst h; rfl
                · simp at h))
  | stop t =>
    have ha := step_attrs h
    simp only [xesStep, xesStop] at h
    simp only [opens, closes, Nat.add_zero]
    by_cases hg : lower t = py!"global"
    · have h1 : lower t ∉ attrTags := mem_of_eq hg (by decide)
      have h2 : lower t ∉ [py!"event", py!"trace", py!"log"] := by rw [hg]; decide
      simp only [hg, if_true, Except.ok.injEq] at h
      subst h
      simp [pops, h1, h2]
    · simp only [hg, if_false] at h
      by_cases ht : lower t ∈ attrTags
      · have hn : lower t ∉ [py!"event", py!"trace", py!"log"] := by
          intro hm
          simp only [List.mem_cons, List.not_mem_nil, or_false] at hm
          rcases hm with hm | hm | hm <;> (rw [hm] at ht; exact absurd ht (by decide))
        simp only [hn, if_false, Nat.add_zero]
        simp only [ht, not_true, if_false] at h
        split at h
        · simp at h
        · rename_i i as ha
          split at h
          · simp at h
          · rename_i ho
            split at h
            · obtain ⟨_, _, h⟩ := bind_ok.1 h
              simp only [Except.ok.injEq] at h
              subst h
              simp [pops, ho, ht]
            · split at h
              · simp at h
              · obtain ⟨_, _, h⟩ := bind_ok.1 h
                obtain ⟨_, _, h⟩ := bind_ok.1 h
                obtain ⟨_, _, h⟩ := bind_ok.1 h
                simp only [Except.ok.injEq] at h
                subst h
                simp [pops, ho, ht]
      · simp only [ht, not_false_eq_true, if_true] at h
        have hp : pops (.stop t) = 0 := by simp [pops, ht]
        rw [hp, Nat.zero_add]
        by_cases h1 : lower t = py!"event"
        · rw [if_pos h1] at h
          simp only [h1, List.mem_cons, true_or, if_true]
          split at h
          · obtain ⟨_, _, h⟩ := bind_ok.1 h
            split at h
            · simp at h
            · rename_i ho
              simp only [Except.ok.injEq] at h
              subst h
              simp [ho]
          · simp at h
          · obtain ⟨_, _, h⟩ := bind_ok.1 h
            split at h
            · simp at h
            · rename_i ho
              simp only [Except.ok.injEq] at h
              subst h
              simp [ho]
        by_cases h2 : lower t = py!"trace"
        · rw [if_neg h1, if_pos h2] at h
          simp only [h2, List.mem_cons, true_or, or_true, if_true]
          split at h
          · obtain ⟨_, _, h⟩ := bind_ok.1 h
            split at h
            · simp at h
            · rename_i ho
              simp only [Except.ok.injEq] at h
              subst h
              simp [ho]
          · simp at h
          · obtain ⟨_, _, h⟩ := bind_ok.1 h
            split at h
            · simp at h
            · rename_i ho
              simp only [Except.ok.injEq] at h
              subst h
              simp [ho]
        by_cases h3 : lower t = py!"log"
        · rw [if_neg h1, if_neg h2, if_pos h3] at h
          simp only [h3, List.mem_cons, true_or, or_true, if_true]
          split at h
          · simp at h
          · rename_i ho
            simp only [Except.ok.injEq] at h
            subst h
            simp [ho]
        rw [if_neg h1, if_neg h2, if_neg h3] at h
        simp only [Except.ok.injEq] at h
        subst h
        simp [h1, h2, h3]

theorem run_objs {fac : Factory F} {mgr : ExtMgr} : ∀ {evs : List Sax} {st st' : XesSt F}, xesRun fac mgr st evs = .ok st' →
    st'.objs.length + (evs.map closes).sum = st.objs.length + (evs.map opens).sum := by
  intro evs
  induction evs with
  | nil => intro st st' h; simp only [xesRun, Except.ok.injEq] at h; subst h; rfl
  | cons e es ih =>
    intro st st' h
    obtain ⟨s, h1, h2⟩ := bind_ok.1 h
    have a := step_objs h1
    have b := ih h2
    simp only [List.map_cons, List.sum_cons]
    omega

mutual
/-- A whole element whose parts can be read closes what it opens. -/
theorem sax_even {mgr : ExtMgr} : ∀ {x : Xml}, AllReadable F mgr x.sax →
    (x.sax.map pushes).sum = (x.sax.map pops).sum ∧ (x.sax.map opens).sum = (x.sax.map closes).sum
  | .elem t as ks, h => by
    obtain ⟨h1, h2⟩ := saxList_even (allReadable_inner h)
    simp only [Xml.inner] at h1 h2
    have hp := canRead_pushes (allReadable_self h)
    have hs : pops (.stop t) = if lower t ∈ attrNames then 1 else 0 := rfl
    have e1 : pushes (.stop t) = 0 := rfl
    have e2 : pops (.start t as) = 0 := rfl
    have e3 : opens (.stop t) = 0 := rfl
    have e4 : closes (.start t as) = 0 := rfl
    have e5 : opens (.start t as) = pushes (.start t as) + if lower t ∈ [py!"event", py!"trace", py!"log"] then 1 else 0 := rfl
    have e6 : closes (.stop t) = pops (.stop t) + if lower t ∈ [py!"event", py!"trace", py!"log"] then 1 else 0 := rfl
    simp only [Xml.sax, List.map_cons, List.map_append, List.sum_cons, List.sum_append, List.map_nil, List.sum_nil]
    constructor <;> omega
theorem saxList_even {mgr : ExtMgr} : ∀ {xs : List Xml}, AllReadable F mgr (saxList xs) →
    ((saxList xs).map pushes).sum = ((saxList xs).map pops).sum ∧ ((saxList xs).map opens).sum = ((saxList xs).map closes).sum
  | [], _ => ⟨rfl, rfl⟩
  | x :: xs, h => by
    obtain ⟨h1, h2⟩ := sax_even (allReadable_list h (x := x) (by simp))
    obtain ⟨h3, h4⟩ := saxList_even (xs := xs) fun t as ht => h t as (by simp only [saxList]; exact List.mem_append_right _ ht)
    simp only [saxList, List.map_append, List.sum_append]
    constructor <;> omega
end

/-! ## Where it happens -/

/-- A part of a document up to an attribute element of a log, a trace, an event or a globals list. -/
def Before (evs : List Sax) : Prop :=
  (evs.map pushes).sum = (evs.map pops).sum ∧ (evs.map opens).sum > (evs.map closes).sum

theorem Before.list {mgr : ExtMgr} {evs : List Sax} (h : Before evs) {xs : List Xml} (hr : AllReadable F mgr (saxList xs)) : Before (evs ++ saxList xs) := by
  obtain ⟨h1, h2⟩ := saxList_even hr
  obtain ⟨h3, h4⟩ := h
  constructor <;> (simp only [List.map_append, List.sum_append]; omega)

theorem Before.start {evs : List Sax} (h : Before evs) {t : Str} (ht : lower t ∉ attrNames) (as : List (Str × Str)) :
    Before (evs ++ [.start t as]) := by
  obtain ⟨h3, h4⟩ := h
  have e1 : pushes (.start t as) = 0 := by
    have : lower t ∉ attrTags := ht
    simp [pushes, this]
  have e2 : pops (.start t as) = 0 := rfl
  have e3 : closes (.start t as) = 0 := rfl
  constructor <;> (simp only [List.map_append, List.sum_append, List.map_cons, List.map_nil, List.sum_cons, List.sum_nil]; omega)

theorem allReadable_append {mgr : ExtMgr} {xs ys : List Sax} (h1 : AllReadable F mgr xs) (h2 : AllReadable F mgr ys) : AllReadable F mgr (xs ++ ys) :=
  fun t as h => (List.mem_append.1 h).elim (h1 t as) (h2 t as)

theorem saxList_app (xs ys : List Xml) : saxList (xs ++ ys) = saxList xs ++ saxList ys := by
  induction xs with
  | nil => rfl
  | cons x xs ih => simp [saxList, ih]

/-- The first element of a list that cannot be read. -/
theorem first_child {mgr : ExtMgr} : ∀ {ks : List Xml}, ¬ AllReadable F mgr (saxList ks) →
    ∃ ks1 k ks2, ks = ks1 ++ k :: ks2 ∧ AllReadable F mgr (saxList ks1) ∧ ¬ AllReadable F mgr k.sax
  | [], h => absurd (fun _ _ h => by cases h) h
  | k :: ks, h => by
    by_cases hk : AllReadable F mgr k.sax
    · obtain ⟨ks1, k', ks2, h1, h2, h3⟩ := first_child (ks := ks) fun hr => h (allReadable_cons hk hr)
      exact ⟨k :: ks1, k', ks2, by rw [h1]; rfl, allReadable_cons hk h2, h3⟩
    · exact ⟨[], k, ks, rfl, (fun _ _ h => by cases h), hk⟩

/-- Where reading a document stops: at a faulty element, or in an attribute element. -/
inductive StopsAt (F : Type) [PyFloat F] (mgr : ExtMgr) (evs : List Sax) : Prop
  | fault {pre post : List Sax} {t : Str} {as : List (Str × Str)} {e : PyErr} : evs = pre ++ .start t as :: post → AllReadable F mgr pre → Fault F mgr t as e →
    StopsAt F mgr evs
  | attr {pre post : List Sax} {a : Xml} : evs = pre ++ (a.sax ++ post) → AllReadable F mgr pre → Before pre → RegularAttr a → ¬ AllReadable F mgr a.sax →
    StopsAt F mgr evs

theorem StopsAt.of_attrs {mgr : ExtMgr} {pre post : List Sax} {ks : List Xml} (h1 : AllReadable F mgr pre) (h2 : Before pre) (h3 : RegularAttrs ks)
    (h4 : ¬ AllReadable F mgr (saxList ks)) : StopsAt F mgr (pre ++ (saxList ks ++ post)) := by
  obtain ⟨ks1, k, ks2, rfl, h5, h6⟩ := first_child h4
  refine .attr (pre := pre ++ saxList ks1) (post := saxList ks2 ++ post) (a := k) ?_ (allReadable_append h1 h5) (h2.list h5)
    (regularAttrs_iff.1 h3 k (by simp)) h6
  simp [saxList_app, saxList]

theorem allReadable_one {mgr : ExtMgr} {t : Str} {as : List (Str × Str)} (h : CanRead F mgr t as) : AllReadable F mgr [.start t as] := by
  intro t' as' hm
  simp only [List.mem_singleton, Sax.start.injEq] at hm
  obtain ⟨rfl, rfl⟩ := hm
  exact h

/-- An element with nothing wrong in its own tag: it is in what it contains. -/
theorem not_inner {mgr : ExtMgr} {t : Str} {as : List (Str × Str)} {ks : List Xml} (h : ¬ AllReadable F mgr (Xml.elem t as ks).sax) (hc : CanRead F mgr t as) :
    ¬ AllReadable F mgr (saxList ks) := fun hr => h (allReadable_elem hc hr)

theorem stops_somewhere {mgr : ExtMgr} {x : Xml} (hx : Regular x) (hn : ¬ AllReadable F mgr x.sax) : StopsAt F mgr x.sax := by
  obtain ⟨t, as, ks⟩ := x
  have hroot : lower t = py!"log" := hx.root
  have hc := log_readable (F := F) mgr hroot as
  have hb : Before [.start t as] := by
    have : lower t ∉ attrTags := mem_of_eq hroot (by decide)
    constructor
    · simp [pushes, pops, this]
    · simp [opens, closes, hroot]
  obtain ⟨ks1, k, ks2, rfl, h2, h3⟩ := first_child (not_inner hn hc)
  have hr0 := allReadable_append (allReadable_one hc) h2
  have hb0 := hb.list h2
  have hsax : (Xml.elem t as (ks1 ++ k :: ks2)).sax = ([.start t as] ++ saxList ks1) ++ (k.sax ++ (saxList ks2 ++ [.stop t])) := by
    simp [Xml.sax, saxList_app, saxList]
  rw [hsax]
  have hk := hx.parts k (by simp [Xml.inner])
  rcases hk with hk | ⟨hk, hk2⟩ | ⟨hk, hk2⟩ | ⟨hk, hk2⟩ | ⟨hk, hk3, hk2⟩
  · exact .attr rfl hr0 hb0 hk h3
  · -- a trace
    obtain ⟨t', as', ks'⟩ := k
    have hk' : lower t' = py!"trace" := hk
    have hc' := other_readable (F := F) mgr (t := t') (by rw [hk']; decide) as'
    obtain ⟨l1, c, l2, rfl, h5, h6⟩ := first_child (not_inner h3 hc')
    have hr1 := allReadable_append (allReadable_append hr0 (allReadable_one hc')) h5
    have hb1 := (hb0.start (t := t') (mem_of_eq hk' (by decide)) as').list h5
    have hsax' : ([.start t as] ++ saxList ks1) ++ ((Xml.elem t' as' (l1 ++ c :: l2)).sax ++ (saxList ks2 ++ [.stop t])) =
        (([.start t as] ++ saxList ks1) ++ [.start t' as'] ++ saxList l1) ++ (c.sax ++ (saxList l2 ++ [.stop t'] ++ (saxList ks2 ++ [.stop t]))) := by
      simp [Xml.sax, saxList_app, saxList]
    rw [hsax']
    rcases hk2 c (by simp [Xml.inner]) with hk2 | ⟨hk2, hk3⟩
    · exact .attr rfl hr1 hb1 hk2 h6
    · obtain ⟨u, bs, cs⟩ := c
      have hu : lower u = py!"event" := hk2
      have hc2 := other_readable (F := F) mgr (t := u) (by rw [hu]; decide) bs
      have := StopsAt.of_attrs (post := [.stop u] ++ (saxList l2 ++ [.stop t'] ++ (saxList ks2 ++ [.stop t]))) (allReadable_append hr1 (allReadable_one hc2)) (hb1.start (t := u) (mem_of_eq hu (by decide)) bs)
        (show RegularAttrs cs from hk3) (not_inner h6 hc2)
      simpa [Xml.sax] using this
  · -- an extension
    obtain ⟨t', as', ks'⟩ := k
    have hk' : lower t' = py!"extension" := hk
    have hi : ks' = [] := hk2
    subst hi
    by_cases hf : ∃ e, Fault F mgr t' as' e
    · obtain ⟨e, hf⟩ := hf
      exact .fault (t := t') (as := as') (pre := [.start t as] ++ saxList ks1) (by simp only [Xml.sax]; rfl) hr0 hf
    · refine absurd (allReadable_elem (ks := []) ⟨fun e he => hf ⟨e, he⟩, fun hl => ?_⟩ fun _ _ h => by cases h) h3
      rw [hl.1] at hk'
      exact absurd hk' (by decide)
  · -- a classifier
    obtain ⟨t', as', ks'⟩ := k
    have hk' : lower t' = py!"classifier" := hk
    have hi : ks' = [] := hk2
    subst hi
    exact absurd (allReadable_elem (ks := []) (other_readable (F := F) mgr (t := t') (by rw [hk']; decide) as') fun _ _ h => by cases h) h3
  · -- a globals list
    obtain ⟨t', as', ks'⟩ := k
    have hk' : lower t' = py!"global" := hk
    by_cases hf : ∃ e, Fault F mgr t' as' e
    · obtain ⟨e, hf⟩ := hf
      exact .fault (t := t') (as := as') (pre := [.start t as] ++ saxList ks1) (by simp only [Xml.sax]; rfl) hr0 hf
    · have hc' : CanRead F mgr t' as' := ⟨fun e he => hf ⟨e, he⟩, fun hl => by rw [hl.1] at hk'; exact absurd hk' (by decide)⟩
      have := StopsAt.of_attrs (post := [.stop t'] ++ (saxList ks2 ++ [.stop t])) (allReadable_append hr0 (allReadable_one hc')) (hb0.start (t := t') (mem_of_eq hk' (by decide)) as')
        (show RegularAttrs ks' from hk2) (not_inner h3 hc')
      simpa [Xml.sax] using this

/-! ## Running -/

/-- The tags in front, when they could be read and were run. -/
theorem trips_after {fac : Factory F} {mgr : ExtMgr} : ∀ {pre : List Sax} {st st' : XesSt F} {rest : List Sax} {e : PyErr}, AllReadable F mgr pre →
    xesRun fac mgr st pre = .ok st' → (Trips F mgr st.attrs.length (pre ++ rest) e ↔ Trips F mgr st'.attrs.length rest e)
  | [], st, st', rest, e, _, h => by cases h; rfl
  | ev :: pre, st, st', rest, e, hr, h => by
    obtain ⟨s, h1, h2⟩ := bind_ok.1 h
    have ih := trips_after (rest := rest) (e := e) (fun t as hm => hr t as (by simp [hm])) h2
    rw [← ih]
    have ha := step_attrs h1
    generalize st.attrs.length = n at ha ⊢
    generalize s.attrs.length = m at ha ⊢
    cases ev with
    | start t as =>
      have hc := hr t as (by simp)
      rw [canRead_pushes hc] at ha
      simp only [pops, Nat.add_zero] at ha
      subst ha
      simp only [List.cons_append]
      by_cases ht : lower t ∈ attrNames
      · rw [if_pos ht]
        constructor
        · intro hT
          cases hT with
          | fault hf => exact absurd hf (hc.1 _)
          | lost hl => exact absurd hl hc.2
          | start _ _ h => exact h
          | other _ hn => exact absurd ht hn
        · exact .start hc ht
      · rw [if_neg ht]
        constructor
        · intro hT
          cases hT with
          | fault hf => exact absurd hf (hc.1 _)
          | lost hl => exact absurd hl hc.2
          | start _ hn => exact absurd hn ht
          | other _ _ h => exact h
        · exact .other hc ht
    | stop t =>
      have hp : pops (.stop t) = if lower t ∈ attrNames then 1 else 0 := rfl
      rw [hp] at ha
      simp only [pushes, Nat.add_zero] at ha
      simp only [List.cons_append]
      by_cases ht : lower t ∈ attrNames
      · rw [if_pos ht] at ha
        subst ha
        constructor
        · intro hT
          cases hT with
          | close _ h => exact h
          | stop hn => exact absurd ht hn
        · exact .close ht
      · rw [if_neg ht, Nat.add_zero] at ha
        subst ha
        constructor
        · intro hT
          cases hT with
          | under hn => exact absurd hn ht
          | close hn => exact absurd hn ht
          | stop _ h => exact h
        · exact .stop ht

/-- The end of an attribute when one is open. -/
theorem stop_fine {h : Heap F} {st : XesSt F} (s : TypedSt h st) {t : Str} (ht : lower t ∈ attrNames) (ha : st.attrs ≠ [])
    (ho : st.attrs.length < st.objs.length) : ∃ st', xesStop st t = .ok st' := by
  have ht' : lower t ∈ attrTags := ht
  have hg : lower t ≠ py!"global" := by
    intro hg
    rw [hg] at ht
    exact absurd ht (by decide)
  cases hA : st.attrs with
  | nil => exact absurd hA ha
  | cons i as =>
  cases hO : st.objs with
  | nil => rw [hO] at ho; simp at ho
  | cons o os =>
  unfold xesStop
  simp only [hg, if_false, ht', not_true, hA, hO]
  cases hG : st.globals with
  | some g =>
    obtain ⟨l, b⟩ := g
    have := s.globals l b hG
    obtain ⟨lo, hl⟩ := isA_log this
    simp [modLog, hl, bind, Except.bind]
  | none =>
    cases os with
    | nil => rw [hA, hO] at ho; simp at ho
    | cons p os =>
      have hi : IsA st.heap i .attr := s.attrs i (by rw [hA]; simp)
      have hp : Carrier st.heap p := s.objs p (by rw [hO]; simp)
      obtain ⟨m, hm, hm'⟩ := mapOf_fine s.heap.wf hp
      obtain ⟨k, key, e, v, mm, c, hi'⟩ := isA_attr hi
      obtain ⟨h', hs, _⟩ := mapSet_fine s.heap.wf key hm' hi
      simp [hm, keyOf, hi', hs, bind, Except.bind]

/-- Among attributes: what raises and what. -/
theorem run_trips {rnd : Nat → Uuid} {mgr : ExtMgr} {h : Heap F} : ∀ {evs : List Sax} {st : XesSt F}, TypedSt h st → st.attrs.length < st.objs.length →
    (∀ e ∈ evs, ∀ t, (e = .stop t ∨ ∃ as, e = .start t as) → lower t ∈ attrNames) → ∀ {e : PyErr}, xesRun (stdFactory F rnd) mgr st evs = .error e →
    Trips F mgr st.attrs.length evs e
  | [], st, _, _, _, e, hr => by cases hr
  | ev :: evs, st, s, ho, hn, e, hr => by
    have hn' : ∀ e ∈ evs, ∀ t, (e = .stop t ∨ ∃ as, e = .start t as) → lower t ∈ attrNames := fun e he => hn e (by simp [he])
    have next : ∀ {st'}, xesStep (stdFactory F rnd) mgr st ev = .ok st' → Trips F mgr st'.attrs.length evs e := by
      intro st' h1
      have hne : ∀ t, ev = .stop t → lower t ∈ attrNames := fun t q => hn ev (by simp) t (.inl q)
      refine run_trips (rnd := rnd) (step_typed s (fun t q q' => ?_) (fun t q q' => ?_) h1) ?_ hn' ?_
      · exact absurd (q' ▸ hne t q) (by decide)
      · exact absurd (q' ▸ hne t q) (by decide)
      · have a := step_attrs h1
        have b := step_objs h1
        cases ev with
        | start t as =>
          simp only [opens, closes, pops] at a b
          omega
        | stop t =>
          have ht := hn (.stop t) (by simp) t (.inl rfl)
          have h2 : lower t ∉ [py!"event", py!"trace", py!"log"] := by
            intro hm
            simp only [List.mem_cons, List.not_mem_nil, or_false] at hm
            rcases hm with hm | hm | hm <;> (rw [hm] at ht; exact absurd ht (by decide))
          simp only [opens, closes, h2, if_false, pushes] at a b
          omega
      · simpa only [xesRun, h1, bind, Except.bind] using hr
    cases ev with
    | start t as =>
      have ht := hn (.start t as) (by simp) t (.inr ⟨as, rfl⟩)
      by_cases hf : ∃ e', Fault F mgr t as e'
      · obtain ⟨e', hf⟩ := hf
        simp only [xesRun, xesStep, fault_start hf, bind, Except.bind, Except.error.injEq] at hr
        subst hr
        exact .fault hf
      · have hstep : ∃ st', xesStep (stdFactory F rnd) mgr st (.start t as) = .ok st' := by
          simp only [xesStep]
          rw [xesStart_attr _ _ _ ht]
          cases hv : readVal (F := F) (lower t) (elemValue as) with
          | error e' =>
            exfalso
            by_cases hl : LostDate t as
            · rw [← xmlAttr_value, readVal_none.2 ⟨hl.1, c124_none.2 hl.2⟩] at hv
              cases hv
            · obtain ⟨k, v, hs⟩ := readable_says ht (⟨fun e he => hf ⟨e, he⟩, hl⟩ : CanRead F mgr t as)
              rw [← xmlAttr_value, (says_readVal hs).2] at hv
              cases hv
          | ok o => cases o <;> exact ⟨_, rfl⟩
        obtain ⟨st', hstep⟩ := hstep
        have hT := next hstep
        have a := step_attrs hstep
        simp only [pops, Nat.add_zero] at a
        by_cases hl : LostDate t as
        · have : pushes (.start t as) = 0 := by simp [pushes, lost_iff.2 hl]
          rw [a, this] at hT
          exact .lost hl hT
        · have hc : CanRead F mgr t as := ⟨fun e he => hf ⟨e, he⟩, hl⟩
          rw [a, canRead_pushes hc, if_pos ht] at hT
          exact .start hc ht hT
    | stop t =>
      have ht := hn (.stop t) (by simp) t (.inl rfl)
      by_cases ha : st.attrs = []
      · rw [ha]
        have ht' : lower t ∈ attrTags := ht
        have hg : lower t ≠ py!"global" := by
          intro hg
          rw [hg] at ht
          exact absurd ht (by decide)
        simp only [xesRun, xesStep, xesStop, hg, if_false, ht', not_true, ha, bind, Except.bind, Except.error.injEq] at hr
        subst hr
        exact .under ht
      · obtain ⟨st', hstep⟩ := stop_fine s ht ha ho
        have hT := next hstep
        have a := step_attrs (fac := stdFactory F rnd) (mgr := mgr) (e := .stop t) hstep
        have hp : pops (.stop t) = 1 := by
          have ht' : lower t ∈ attrTags := ht
          simp [pops, ht']
        rw [hp] at a
        simp only [pushes, Nat.add_zero] at a
        rw [← a]
        exact .close ht hT

mutual
theorem regularAttr_tags : ∀ {x : Xml}, RegularAttr x → ∀ e ∈ x.sax, ∀ t, (e = .stop t ∨ ∃ as, e = .start t as) → lower t ∈ attrNames
  | .elem t as ks, h, e, he, u, hu => by
    simp only [RegularAttr] at h
    simp only [Xml.sax, List.mem_cons, List.mem_append, List.not_mem_nil, or_false] at he
    rcases he with rfl | he | rfl
    · rcases hu with hu | ⟨_, hu⟩ <;> cases hu
      exact h.1
    · exact regularAttrs_tags h.2 e he u hu
    · rcases hu with hu | ⟨_, hu⟩ <;> cases hu
      exact h.1
theorem regularAttrs_tags : ∀ {xs : List Xml}, RegularAttrs xs → ∀ e ∈ saxList xs, ∀ t, (e = .stop t ∨ ∃ as, e = .start t as) → lower t ∈ attrNames
  | [], _, e, he, u, hu => by cases he
  | x :: xs, h, e, he, u, hu => by
    simp only [RegularAttrs] at h
    simp only [saxList, List.mem_append] at he
    exact he.elim (fun he => regularAttr_tags h.1 e he u hu) fun he => regularAttrs_tags h.2 e he u hu
end

mutual
theorem regularAttr_hasnt {name : Str} (hn : name ∉ attrNames) : ∀ {x : Xml}, RegularAttr x → ¬ x.has name
  | .elem t as ks, h => by
    simp only [RegularAttr] at h
    simp only [Xml.has, not_or]
    exact ⟨fun q => hn (q ▸ h.1), regularAttrs_hasnt hn h.2⟩
theorem regularAttrs_hasnt {name : Str} (hn : name ∉ attrNames) : ∀ {xs : List Xml}, RegularAttrs xs → ¬ hasAny name xs
  | [], _ => fun q => q
  | x :: xs, h => by
    simp only [RegularAttrs] at h
    simp only [hasAny, not_or]
    exact ⟨regularAttr_hasnt hn h.1, regularAttrs_hasnt hn h.2⟩
end

mutual
theorem hasnt_flat {name : Str} : ∀ {x : Xml}, ¬ x.has name → x.flat name
  | .elem t as ks, h => by
    simp only [Xml.has, not_or] at h
    exact ⟨hasntAny_flat h.2, fun q => absurd q h.1⟩
theorem hasntAny_flat {name : Str} : ∀ {xs : List Xml}, ¬ hasAny name xs → flatAll name xs
  | [], _ => trivial
  | x :: xs, h => by
    simp only [hasAny, not_or] at h
    exact ⟨hasnt_flat h.1, hasntAny_flat h.2⟩
end

theorem flatAll_of {name : Str} : ∀ {xs : List Xml}, (∀ x ∈ xs, x.flat name) → flatAll name xs
  | [], _ => trivial
  | x :: xs, h => ⟨h x (by simp), flatAll_of fun y hy => h y (by simp [hy])⟩

theorem hasntAny_of {name : Str} : ∀ {xs : List Xml}, (∀ x ∈ xs, ¬ x.has name) → ¬ hasAny name xs
  | [], _ => fun q => q
  | x :: xs, h => fun q => q.elim (h x (by simp)) (hasntAny_of fun y hy => h y (by simp [hy]))

/-- In a document whose elements are where they belong, nothing is nested. -/
theorem regular_flat {x : Xml} (hx : Regular x) : x.plainNest := by
  have hattr : ∀ {k : Xml}, RegularAttr k → ¬ k.has py!"event" ∧ ¬ k.has py!"trace" := fun h =>
    ⟨regularAttr_hasnt (by decide) h, regularAttr_hasnt (by decide) h⟩
  have hev : ∀ {k : Xml}, k.name = py!"event" → RegularAttrs k.inner → k.flat py!"event" ∧ ¬ k.has py!"trace" := by
    rintro ⟨t, as, ks⟩ hn hk
    simp only [Xml.name] at hn
    simp only [Xml.inner] at hk
    refine ⟨⟨hasntAny_flat (regularAttrs_hasnt (by decide) hk), fun _ => regularAttrs_hasnt (by decide) hk⟩, ?_⟩
    simp only [Xml.has, not_or]
    exact ⟨by rw [hn]; decide, regularAttrs_hasnt (by decide) hk⟩
  have hpart : ∀ k ∈ x.inner, k.flat py!"event" ∧ k.flat py!"trace" := by
    intro k hk
    have hp := hx.parts k hk
    cases k with
    | elem t as ks =>
    rcases hp with h | ⟨hn, h⟩ | ⟨hn, h⟩ | ⟨hn, h⟩ | ⟨hn, _, h⟩
    · exact ⟨hasnt_flat (hattr h).1, hasnt_flat (hattr h).2⟩
    · simp only [Xml.name] at hn
      simp only [RegularTrace, Xml.inner] at h
      have h1 : ∀ k ∈ ks, k.flat py!"event" ∧ ¬ k.has py!"trace" := fun k hk =>
        (h k hk).elim (fun q => ⟨hasnt_flat (hattr q).1, (hattr q).2⟩) fun q => hev q.1 q.2
      exact ⟨⟨flatAll_of fun k hk => (h1 k hk).1, fun q => absurd (hn.symm.trans q) (by decide)⟩,
        flatAll_of fun k hk => hasnt_flat (h1 k hk).2, fun _ => hasntAny_of fun k hk => (h1 k hk).2⟩
    · simp only [Xml.inner] at h
      subst h
      exact ⟨⟨trivial, fun _ q => q⟩, trivial, fun _ q => q⟩
    · simp only [Xml.inner] at h
      subst h
      exact ⟨⟨trivial, fun _ q => q⟩, trivial, fun _ q => q⟩
    · simp only [Xml.inner] at h
      exact ⟨⟨hasntAny_flat (regularAttrs_hasnt (by decide) h), fun _ => regularAttrs_hasnt (by decide) h⟩,
        hasntAny_flat (regularAttrs_hasnt (by decide) h), fun _ => regularAttrs_hasnt (by decide) h⟩
  have hr := hx.root
  cases x with
  | elem t as ks =>
  simp only [Xml.name] at hr
  simp only [Xml.inner] at hpart
  exact ⟨⟨flatAll_of fun k hk => (hpart k hk).1, fun q => absurd (hr.symm.trans q) (by decide)⟩,
    flatAll_of fun k hk => (hpart k hk).2, fun q => absurd (hr.symm.trans q) (by decide)⟩

mutual
theorem hasBadDate_mem : ∀ {x : Xml} {t : Str} {as : List (Str × Str)}, .start t as ∈ x.sax → LostDate t as → x.hasBadDate = true
  | .elem u bs ks, t, as, h, hl => by
    simp only [Xml.sax, List.mem_cons, List.mem_append, List.not_mem_nil, or_false, reduceCtorEq] at h
    simp only [Xml.hasBadDate, Bool.or_eq_true]
    rcases h with h | h
    · cases h
      exact .inl (lost_iff.2 hl)
    · exact .inr (anyBadDate_mem h hl)
theorem anyBadDate_mem : ∀ {xs : List Xml} {t : Str} {as : List (Str × Str)}, .start t as ∈ saxList xs → LostDate t as → anyBadDate xs = true
  | [], t, as, h, hl => by cases h
  | x :: xs, t, as, h, hl => by
    simp only [saxList, List.mem_append] at h
    simp only [anyBadDate, Bool.or_eq_true]
    exact h.imp (fun h => hasBadDate_mem h hl) fun h => anyBadDate_mem h hl
end

theorem run_no_fault {fac : Factory F} {mgr : ExtMgr} {evs : List Sax} {st st' : XesSt F} (h : xesRun fac mgr st evs = .ok st') :
    ∀ t as e, .start t as ∈ evs → ¬ Fault F mgr t as e := by
  intro t as e hm hf
  obtain ⟨xs, ys, rfl⟩ := List.append_of_mem hm
  rw [xesRun_append] at h
  obtain ⟨s, _, h2⟩ := bind_ok.1 h
  simp only [xesRun, xesStep, fault_start hf, bind, Except.bind] at h2
  cases h2

/-! ## C153 -/

/-- C153: a document whose elements are where they belong is refused exactly when, and as, its tags say; whatever its values are. -/
theorem c153_dates [Nonempty F] (rnd : Nat → Uuid) {mgr : ExtMgr} {x : Xml} (hx : Regular x) (given : Option (Factory F)) {h : Heap F} (hw : WellFormed h)
    (e : PyErr) : xesParse given (stdFactory F rnd) mgr h x.sax = .error e ↔ Trips F mgr 0 x.sax e := by
  have s0 : TypedSt h (.init h) := ⟨.refl hw, fun r hr => (by cases hr), fun r hr => (by cases hr), fun r hr => (by cases hr),
    fun r hr => (by cases hr), fun r hr => (by cases hr), fun r b hr => (by cases hr)⟩
  have run_pre : ∀ {pre post : List Sax}, x.sax = pre ++ post → AllReadable F mgr pre → ∃ s, xesRun (stdFactory F rnd) mgr (.init h) pre = .ok s := by
    intro pre post hs hr
    obtain ⟨_, _, _, _, hok, _⟩ := c153_loaded rnd (fixDoc_regular (mgr := mgr) hx) (fixDoc_readable mgr x) given h
    rw [fixDoc_sax, hs, List.map_append, fixEvent_readable hr] at hok
    obtain ⟨st, hst, _⟩ := bind_ok.1 hok
    rw [xesRun_append] at hst
    obtain ⟨s, hpre, _⟩ := bind_ok.1 hst
    exact ⟨s, hpre⟩
  -- the exception that there is, is the one that the tags say
  suffices hmain : (AllReadable F mgr x.sax ∧ ∀ e, ¬ Trips F mgr 0 x.sax e) ∨
      ∃ e, xesParse given (stdFactory F rnd) mgr h x.sax = .error e ∧ Trips F mgr 0 x.sax e by
    rcases hmain with ⟨hr, hT⟩ | ⟨e', h1, h2⟩
    · obtain ⟨_, _, _, _, hok, _⟩ := c153_loaded rnd hx hr given h
      exact ⟨fun he => (by rw [he] at hok; cases hok), fun he => absurd he (hT e)⟩
    · constructor
      · intro he
        rw [h1] at he
        cases he
        exact h2
      · intro he
        rw [h1, h2.unique he]
  by_cases hr : AllReadable F mgr x.sax
  · refine .inl ⟨hr, fun e he => ?_⟩
    obtain ⟨s, hs⟩ := run_pre (pre := x.sax) (post := []) (by simp) hr
    have := (trips_after (rest := []) (e := e) hr hs).1 (by rw [List.append_nil]; exact he)
    generalize s.attrs.length = n at this
    cases this
  · right
    rcases stops_somewhere hx hr with ⟨hs, hp, hf⟩ | ⟨hs, hp, hb, ha, hn⟩
    · rename_i pre post t as e'
      obtain ⟨s, hpre⟩ := run_pre hs hp
      refine ⟨e', c153_refused rnd hx hs hp hf given h, ?_⟩
      rw [hs]
      exact (trips_after hp hpre).2 (.fault hf)
    · rename_i pre post a
      obtain ⟨s, hpre⟩ := run_pre hs hp
      have h1 := run_attrs hpre
      have h2 := run_objs hpre
      have hz : (XesSt.init h).attrs.length = 0 ∧ (XesSt.init h).objs.length = 0 := ⟨rfl, rfl⟩
      obtain ⟨hb1, hb2⟩ := hb
      have hlen : s.attrs.length = 0 := by omega
      have hobj : s.attrs.length < s.objs.length := by omega
      have herr : ∃ e, xesRun (stdFactory F rnd) mgr s a.sax = .error e := by
        cases hrun : xesRun (stdFactory F rnd) mgr s a.sax with
        | error e => exact ⟨e, rfl⟩
        | ok s' =>
          exfalso
          have hnf := run_no_fault hrun
          have hbd : a.hasBadDate = true := by
            apply Classical.byContradiction
            intro hb
            exact hn fun t as ht => ⟨fun e => hnf t as e ht, fun hl => hb (hasBadDate_mem ht hl)⟩
          have hc := sax_counts a
          have hra := run_attrs hrun
          rw [hbd] at hc
          simp only [if_true] at hc
          omega
      obtain ⟨e', herr⟩ := herr
      have hAlt : ∀ name, Alternates name false x.sax → Alternates name false pre := fun name q => alternates_prefix (hs ▸ q)
      have hT := run_trips (run_typed s0 (hAlt _ (alternates_iff_flat.2 (regular_flat hx).1)) (hAlt _ (alternates_iff_flat.2 (regular_flat hx).2))
        (fun q => by cases q) (fun q => by cases q) hpre) hobj (regularAttr_tags ha) herr
      refine ⟨e', ?_, ?_⟩
      · simp only [xesParse, hs, xesRun_append, hpre, herr, bind, Except.bind]
      · rw [hs]
        exact (trips_after hp hpre).2 (hT.more post)

/-- C44, C153: where only dates cannot be read, it is an IndexError. -/
theorem c153_only_dates [Nonempty F] (rnd : Nat → Uuid) {mgr : ExtMgr} {x : Xml} (hx : Regular x) (given : Option (Factory F)) {h : Heap F} (hw : WellFormed h)
    (hf : ∀ t as e, .start t as ∈ x.sax → ¬ Fault F mgr t as e) (hd : ∃ t as, .start t as ∈ x.sax ∧ LostDate t as) :
    xesParse given (stdFactory F rnd) mgr h x.sax = .error .indexError := by
  obtain ⟨t, as, hm, hl⟩ := hd
  obtain ⟨e, he⟩ := c44_bad_date_refuted given (stdFactory F rnd) mgr h (hasBadDate_mem hm hl)
  rw [he, ((c153_dates rnd hx given hw e).1 he).index hf]

end

/-! ## Examples -/

/-- An unreadable date in a container, then an unreadable number. -/
def lostThenFault : Xml := .elem py!"log" [] [.elem py!"container" [(py!"key", py!"c")]
  [.elem py!"date" [(py!"key", py!"d"), (py!"value", py!"yesterday")] [], .elem py!"int" [(py!"key", py!"i"), (py!"value", py!"one")] []]]

/-- The other way round, and the date is not in a container. -/
def lostAlone : Xml := .elem py!"log" [] [.elem py!"date" [(py!"key", py!"d"), (py!"value", py!"yesterday")] [],
  .elem py!"int" [(py!"key", py!"i"), (py!"value", py!"one")] []]

theorem lostThenFault_regular : Regular lostThenFault where
  root := by decide
  distinct := by decide
  parts k hk := by
    simp only [lostThenFault, Xml.inner, List.mem_cons, List.not_mem_nil, or_false] at hk
    subst hk
    refine .inl ?_
    simp only [RegularAttr, RegularAttrs]
    decide

theorem lostAlone_regular : Regular lostAlone where
  root := by decide
  distinct := by decide
  parts k hk := by
    simp only [lostAlone, Xml.inner, List.mem_cons, List.not_mem_nil, or_false] at hk
    rcases hk with rfl | rfl <;> (refine .inl ?_; simp only [RegularAttr, RegularAttrs]; decide)

theorem yesterday_lost : LostDate py!"date" [(py!"key", py!"d"), (py!"value", py!"yesterday")] := lost_iff.1 (by decide +kernel)

theorem one_fault : Fault ToyFloat noExts py!"int" [(py!"key", py!"i"), (py!"value", py!"one")] .valueError := by
  refine .int (by decide) fun z hz => ?_
  have := pyInt_iff.2 hz
  have h2 : pyInt (xmlAttr py!"value" [] [(py!"key", py!"i"), (py!"value", py!"one")]) = none := by decide +kernel
  rw [h2] at this
  cases this

/-- The end of the date closes the container; the number is what is complained about. -/
example (rnd : Nat → Uuid) {h : Heap ToyFloat} (hw : WellFormed h) :
    xesParse none (stdFactory ToyFloat rnd) noExts h lostThenFault.sax = .error .valueError := by
  haveI : Nonempty ToyFloat := ⟨⟨0⟩⟩
  refine (c153_dates rnd lostThenFault_regular none hw _).2 ?_
  refine .other (other_readable _ (by decide) _) (by decide) (.start (says_readable (k := .container) (v := .none) (.container _)) (by decide) ?_)
  exact .lost yesterday_lost (.close (by decide) (.fault one_fault))

/-- Here the end of the date finds nothing open. -/
example (rnd : Nat → Uuid) {h : Heap ToyFloat} (hw : WellFormed h) :
    xesParse none (stdFactory ToyFloat rnd) noExts h lostAlone.sax = .error .indexError := by
  haveI : Nonempty ToyFloat := ⟨⟨0⟩⟩
  refine (c153_dates rnd lostAlone_regular none hw _).2 ?_
  exact .other (other_readable _ (by decide) _) (by decide) (.lost yesterday_lost (.under (by decide)))

/-- A heap to load into. -/
example : WellFormed (⟨[], 0⟩ : Heap ToyFloat) := fun _ _ h => by cases h

end Opy
