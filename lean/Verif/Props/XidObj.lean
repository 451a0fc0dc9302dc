import Verif.Model.XidObj
/-
C164: identifiers are objects: which events and ID attributes change with set_uuid, set_id and set_value.
-/
namespace Opy

/-- Something that has an identifier: an event (get_id) or an ID attribute (get_value). -/
inductive IdHolder where
  | event (e : Nat)
  | attr (a : Nat)
deriving DecidableEq, Repr

/-- The XID object that a holder has, if there is such a holder. -/
def XidState.held (s : XidState) : IdHolder → Option Nat
  | .event e => s.events[e]?
  | .attr a => s.attrs[a]?

/-- The UUID that a holder shows. -/
def XidState.shows (s : XidState) (o : IdHolder) : Option Uuid := (s.held o).map s.uuid

/-- Every XID that is referred to exists. -/
def XidState.Good (s : XidState) : Prop := ∀ o x, s.held o = some x → x < s.xids.length

/-- The arguments of the call exist. -/
def XidCall.Fits (s : XidState) : XidCall → Prop
  | .create | .make _ | .parse _ | .newEvent none => True
  | .cloneXid x | .setUuid x _ | .newEvent (some x) | .newAttr x => x < s.xids.length
  | .setId e x => e < s.events.length ∧ x < s.xids.length
  | .cloneEvent e => e < s.events.length
  | .setValue a x => a < s.attrs.length ∧ x < s.xids.length
  | .cloneAttr a => a < s.attrs.length

/-- A run in which the arguments of all calls exist. -/
inductive XidRun (rnd : Nat → Uuid) : XidState → List XidCall → XidState → Prop
  | nil (s) : XidRun rnd s [] s
  | cons {s c L t} : c.Fits s → XidRun rnd (s.step rnd c) L t → XidRun rnd s (c :: L) t

/-- The call gives a holder another identifier. -/
def XidCall.Gives : XidCall → IdHolder → Prop
  | .setId e _, o => o = .event e
  | .setValue a _, o => o = .attr a
  | _, _ => False

/-- The call is given the XID for a holder to keep. -/
def XidCall.Passes : XidCall → Nat → Prop
  | .newEvent (some y), x | .setId _ y, x | .newAttr y, x | .setValue _ y, x => x = y
  | _, _ => False

/-- The call is set_uuid on the XID. -/
def XidCall.Sets : XidCall → Nat → Prop
  | .setUuid y _, x => x = y
  | _, _ => False

theorem uuid_fun (s : XidState) : s.uuid = fun x => s.xids.getD x 0 := rfl

theorem getD_append_left {l m : List Uuid} {x : Nat} (h : x < l.length) : (l ++ m).getD x 0 = l.getD x 0 := by
  simp [List.getD, List.getElem?_append_left h]

theorem held_step (rnd : Nat → Uuid) {s : XidState} {c : XidCall} {o : IdHolder} {x : Nat} (hn : ¬ c.Gives o)
    (h : s.held o = some x) : (s.step rnd c).held o = some x := by
  have app : ∀ {l m : List Nat} {i : Nat}, l[i]? = some x → (l ++ m)[i]? = some x := by
    intro l m i hi
    rw [List.getElem?_append_left (List.getElem?_eq_some_iff.mp hi).1]; exact hi
  have st : ∀ {l : List Nat} {i j y : Nat}, l[i]? = some x → j ≠ i → (l.set j y)[i]? = some x := by
    intro l i j y hi hj
    rw [List.getElem?_set_ne hj]; exact hi
  cases c with
  | parse t => simp only [XidState.step]; split <;> (cases o <;> exact h)
  | newEvent y => cases y <;> cases o <;> first | exact app h | exact h
  | setId e y =>
    cases o with
    | event e' => exact st h fun he => hn (by simp [XidCall.Gives, he])
    | attr a => exact h
  | setValue a y =>
    cases o with
    | event e => exact h
    | attr a' => exact st h fun he => hn (by simp [XidCall.Gives, he])
  | _ => cases o <;> first | exact app h | exact h

theorem xids_step (rnd : Nat → Uuid) {s : XidState} {c : XidCall} {x : Nat} (h : x < s.xids.length) :
    x < (s.step rnd c).xids.length ∧ (¬ c.Sets x → (s.step rnd c).uuid x = s.uuid x) := by
  have app : ∀ m : List Uuid, x < (s.xids ++ m).length ∧ (s.xids ++ m).getD x 0 = s.xids.getD x 0 := by
    intro m
    exact ⟨by simp; omega, getD_append_left h⟩
  cases c with
  | create => exact ⟨(app _).1, fun _ => (app _).2⟩
  | make u => exact ⟨(app _).1, fun _ => (app _).2⟩
  | cloneXid y => exact ⟨(app _).1, fun _ => (app _).2⟩
  | cloneAttr y => exact ⟨(app _).1, fun _ => (app _).2⟩
  | cloneEvent y =>
    refine ⟨?_, fun _ => ?_⟩
    · simp [XidState.step, XidState.drawXid]; omega
    · simp only [XidState.step, XidState.drawXid, XidState.uuid, List.append_assoc]; exact (app _).2
  | parse t =>
    simp only [XidState.step]
    split
    · exact ⟨(app _).1, fun _ => (app _).2⟩
    · exact ⟨h, fun _ => rfl⟩
  | newEvent y =>
    cases y with
    | none => exact ⟨(app _).1, fun _ => (app _).2⟩
    | some y => exact ⟨h, fun _ => rfl⟩
  | setUuid y u =>
    refine ⟨by simpa [XidState.step] using h, fun hn => ?_⟩
    have : y ≠ x := fun e => hn (by simp [XidCall.Sets, e])
    simp [XidState.step, XidState.uuid, List.getD, List.getElem?_set_ne this]
  | _ => exact ⟨h, fun _ => rfl⟩

/-- What a holder has after a call, when it was not there before or was given something: an XID that was passed, or a new
one that no one else has. -/
theorem held_back (rnd : Nat → Uuid) {s : XidState} {c : XidCall} {o : IdHolder} {x : Nat} (h : (s.step rnd c).held o = some x) :
    s.held o = some x ∨ c.Passes x ∨ s.xids.length ≤ x ∧ x < (s.step rnd c).xids.length ∧ s.held o = none := by
  have app : ∀ {l : List Nat} {i y : Nat}, (l ++ [y])[i]? = some x → l[i]? = some x ∨ x = y ∧ l[i]? = none := by
    intro l i y hi
    rw [List.getElem?_append] at hi
    split at hi
    · exact .inl hi
    · rename_i hlt
      rw [List.getElem?_singleton] at hi
      split at hi
      · exact .inr ⟨(Option.some.inj hi).symm, List.getElem?_eq_none (by omega)⟩
      · exact absurd hi (by simp)
  have st : ∀ {l : List Nat} {i j y : Nat}, (l.set j y)[i]? = some x → l[i]? = some x ∨ x = y := by
    intro l i j y hi
    rw [List.getElem?_set] at hi
    split at hi
    · split at hi
      · exact .inr (Option.some.inj hi).symm
      · exact absurd hi (by simp)
    · exact .inl hi
  cases c with
  | parse t =>
    simp only [XidState.step] at h
    split at h <;> (cases o <;> exact .inl h)
  | newEvent y =>
    cases y with
    | none =>
      cases o with
      | event e =>
        rcases app h with h1 | ⟨h1, h2⟩
        · exact .inl h1
        · exact .inr (.inr ⟨by omega, by simp [XidState.step, XidState.drawXid, h1], h2⟩)
      | attr a => exact .inl h
    | some y =>
      cases o with
      | event e =>
        rcases app h with h1 | ⟨h1, _⟩
        · exact .inl h1
        · exact .inr (.inl h1)
      | attr a => exact .inl h
  | setId e y =>
    cases o with
    | event e' => exact (st h).elim .inl fun h1 => .inr (.inl h1)
    | attr a => exact .inl h
  | setValue a y =>
    cases o with
    | event e => exact .inl h
    | attr a' => exact (st h).elim .inl fun h1 => .inr (.inl h1)
  | cloneEvent e =>
    cases o with
    | event e' =>
      rcases app h with h1 | ⟨h1, h2⟩
      · exact .inl h1
      · exact .inr (.inr ⟨by omega, by simp [XidState.step, XidState.drawXid, h1], h2⟩)
    | attr a => exact .inl h
  | newAttr y =>
    cases o with
    | event e => exact .inl h
    | attr a =>
      rcases app h with h1 | ⟨h1, _⟩
      · exact .inl h1
      · exact .inr (.inl h1)
  | cloneAttr y =>
    cases o with
    | event e => exact .inl h
    | attr a =>
      rcases app h with h1 | ⟨h1, h2⟩
      · exact .inl h1
      · exact .inr (.inr ⟨by omega, by simp [XidState.step, XidState.newXid, h1], h2⟩)
  | _ => cases o <;> exact .inl h

theorem good_step (rnd : Nat → Uuid) {s : XidState} {c : XidCall} (hg : s.Good) (hf : c.Fits s) : (s.step rnd c).Good := by
  intro o x h
  rcases held_back rnd h with h1 | h1 | h1
  · exact (xids_step rnd (hg o x h1)).1
  · refine (xids_step rnd (x := x) ?_).1
    cases c with
    | newEvent y =>
      cases y with
      | none => exact h1.elim
      | some y => simp only [XidCall.Passes] at h1; subst h1; exact hf
    | setId e y => simp only [XidCall.Passes] at h1; subst h1; exact hf.2
    | newAttr y => simp only [XidCall.Passes] at h1; subst h1; exact hf
    | setValue a y => simp only [XidCall.Passes] at h1; subst h1; exact hf.2
    | _ => exact h1.elim
  · exact h1.2.1

theorem XidRun.good {rnd : Nat → Uuid} {s t : XidState} {L : List XidCall} (h : XidRun rnd s L t) (hg : s.Good) : t.Good := by
  induction h with
  | nil => exact hg
  | cons hf _ ih => exact ih (good_step rnd hg hf)

/-- C164: an identifier stays as it is while neither it is replaced nor its XID is set. -/
theorem c164_kept {rnd : Nat → Uuid} {s t : XidState} {L : List XidCall} (hr : XidRun rnd s L t) (hg : s.Good) {o : IdHolder} {x : Nat}
    (ho : s.held o = some x) (hn : ∀ c ∈ L, ¬ c.Gives o ∧ ¬ c.Sets x) : t.held o = some x ∧ t.shows o = s.shows o := by
  induction hr with
  | nil => exact ⟨ho, rfl⟩
  | @cons s c L t hf _ ih =>
    have h1 := hn c List.mem_cons_self
    have h2 := held_step rnd h1.1 ho
    have h3 := (xids_step rnd (c := c) (hg o x ho)).2 h1.2
    obtain ⟨h4, h5⟩ := ih (good_step rnd hg hf) h2 fun c' hc => hn c' (List.mem_cons_of_mem _ hc)
    refine ⟨h4, h5.trans ?_⟩
    simp [XidState.shows, h2, ho, h3]

/-- C164: set_uuid changes exactly the holders that have this XID object. -/
theorem c164_set (rnd : Nat → Uuid) {s : XidState} (hg : s.Good) {x : Nat} (hx : x < s.xids.length) (u : Uuid) (o : IdHolder) :
    (s.step rnd (.setUuid x u)).shows o = if s.held o = some x then some u else s.shows o := by
  have hh : (s.step rnd (.setUuid x u)).held o = s.held o := by cases o <;> rfl
  simp only [XidState.shows, hh]
  split
  · rename_i h
    simp [h, XidState.step, XidState.uuid, List.getD, List.getElem?_set_self hx]
  · rename_i h
    cases h1 : s.held o with
    | none => rfl
    | some y =>
      have hne : y ≠ x := fun e => h (by rw [h1, e])
      rw [Option.map_some, Option.map_some, (xids_step rnd (c := .setUuid x u) (hg o y h1)).2 hne]

/-- C164: set_id and set_value change the one they are called on and no other. -/
theorem c164_give (rnd : Nat → Uuid) {s : XidState} {x : Nat} (o : IdHolder) :
    (∀ e < s.events.length, (s.step rnd (.setId e x)).shows o = if o = .event e then some (s.uuid x) else s.shows o) ∧
    ∀ a < s.attrs.length, (s.step rnd (.setValue a x)).shows o = if o = .attr a then some (s.uuid x) else s.shows o := by
  constructor
  · intro e he
    cases o with
    | attr a => rfl
    | event e' =>
      by_cases h : e = e'
      · subst h
        simp [XidState.shows, XidState.held, XidState.step, List.getElem?_set_self he, XidState.uuid]
      · simp [XidState.shows, XidState.held, XidState.step, List.getElem?_set_ne h, uuid_fun, Ne.symm h]
  · intro e he
    cases o with
    | event a => rfl
    | attr e' =>
      by_cases h : e = e'
      · subst h
        simp [XidState.shows, XidState.held, XidState.step, List.getElem?_set_self he, XidState.uuid]
      · simp [XidState.shows, XidState.held, XidState.step, List.getElem?_set_ne h, uuid_fun, Ne.symm h]

/-- C164: a new event without a given identifier, the clone of an event and the clone of an ID attribute have an XID object
that no one else has. -/
theorem c164_new (rnd : Nat → Uuid) {s : XidState} (hg : s.Good) :
    (∀ c, c = .newEvent none ∨ (∃ e, c = .cloneEvent e) →
      ∃ x, (s.step rnd c).held (.event s.events.length) = some x ∧ ∀ o, (s.step rnd c).held o = some x → o = .event s.events.length) ∧
    ∀ a u, s.shows (.attr a) = some u →
      (s.step rnd (.cloneAttr a)).shows (.attr s.attrs.length) = some u ∧
      ∃ x, (s.step rnd (.cloneAttr a)).held (.attr s.attrs.length) = some x ∧
        ∀ o, (s.step rnd (.cloneAttr a)).held o = some x → o = .attr s.attrs.length := by
  have app : ∀ {l : List Nat} {x i : Nat}, (l ++ [x])[i]? = some x → l[i]? ≠ some x → i = l.length := by
    intro l x i h1 h2
    rw [List.getElem?_append] at h1
    split at h1
    · exact absurd h1 h2
    · rw [List.getElem?_singleton] at h1
      split at h1
      · omega
      · exact absurd h1 (by simp)
  have big : ∀ o x, s.xids.length ≤ x → s.held o ≠ some x := fun o x hx h => absurd (hg o x h) (by omega)
  refine ⟨?_, ?_⟩
  · rintro c (rfl | ⟨e, rfl⟩)
    · refine ⟨s.xids.length, by simp [XidState.step, XidState.held], ?_⟩
      intro o ho
      cases o with
      | event e' => rw [app ho (big (.event e') _ (Nat.le_refl _))]
      | attr a => exact absurd ho (big (.attr a) _ (Nat.le_refl _))
    · refine ⟨s.xids.length + 1, by simp [XidState.step, XidState.held], ?_⟩
      intro o ho
      cases o with
      | event e' => rw [app ho (big (.event e') _ (by omega))]
      | attr a => exact absurd ho (big (.attr a) _ (by omega))
  · intro a u ha
    refine ⟨?_, s.xids.length, by simp [XidState.step, XidState.held], ?_⟩
    · simp only [XidState.shows, XidState.held] at ha
      cases h1 : s.attrs[a]? with
      | none => simp [h1] at ha
      | some x =>
        simp only [h1, Option.map_some] at ha
        simp [XidState.shows, XidState.held, XidState.step, XidState.newXid, XidState.uuid, List.getD, h1, ← ha]
    · intro o ho
      cases o with
      | event e' => exact absurd ho (big (.event e') _ (Nat.le_refl _))
      | attr a => rw [app ho (big (.attr a) _ (Nat.le_refl _))]

/-- C164: an XID that one holder has is its own as long as no call passes it on. -/
theorem c164_own {rnd : Nat → Uuid} {s t : XidState} {L : List XidCall} (hr : XidRun rnd s L t) {o : IdHolder} {x : Nat}
    (hx : x < s.xids.length) (ho : ∀ o', s.held o' = some x → o' = o) (hp : ∀ c ∈ L, ¬ c.Passes x) :
    ∀ o', t.held o' = some x → o' = o := by
  induction hr with
  | nil => exact ho
  | @cons s c L t hf _ ih =>
    refine ih (xids_step rnd hx).1 (fun o' h => ?_) fun c' hc => hp c' (List.mem_cons_of_mem _ hc)
    rcases held_back rnd h with h1 | h1 | h1
    · exact ho o' h1
    · exact absurd h1 (hp c List.mem_cons_self)
    · omega

/- Identifiers as values -/

/-- Events and ID attributes that have UUIDs instead of references to XIDs. -/
structure IdValues where
  xids : List Uuid
  events : List Uuid
  attrs : List Uuid
  drawn : Nat
deriving DecidableEq, Repr

/-- What there is to see in a state. -/
def XidState.values (s : XidState) : IdValues := ⟨s.xids, s.events.map s.uuid, s.attrs.map s.uuid, s.drawn⟩

/-- The calls on values: a holder has the UUID that its argument has at the time of the call. -/
def IdValues.step (rnd : Nat → Uuid) (v : IdValues) : XidCall → IdValues
  | .create => { v with xids := v.xids ++ [rnd v.drawn], drawn := v.drawn + 1 }
  | .make u => { v with xids := v.xids ++ [u] }
  | .parse text => { v with xids := v.xids ++ (xidParse text).toList }
  | .cloneXid x => { v with xids := v.xids ++ [v.xids.getD x 0] }
  | .setUuid x u => { v with xids := v.xids.set x u }
  | .newEvent (some x) => { v with events := v.events ++ [v.xids.getD x 0] }
  | .newEvent none => { v with xids := v.xids ++ [rnd v.drawn], events := v.events ++ [rnd v.drawn], drawn := v.drawn + 1 }
  | .setId e x => { v with events := v.events.set e (v.xids.getD x 0) }
  | .cloneEvent _ => { v with
      xids := v.xids ++ [rnd v.drawn, rnd (v.drawn + 1)], events := v.events ++ [rnd (v.drawn + 1)], drawn := v.drawn + 2 }
  | .newAttr x => { v with attrs := v.attrs ++ [v.xids.getD x 0] }
  | .setValue a x => { v with attrs := v.attrs.set a (v.xids.getD x 0) }
  | .cloneAttr a => { v with xids := v.xids ++ [v.attrs.getD a 0], attrs := v.attrs ++ [v.attrs.getD a 0] }

theorem map_uuid_append {l : List Nat} {xs ys : List Uuid} (h : ∀ (i x : Nat), l[i]? = some x → x < xs.length) :
    l.map (fun x => (xs ++ ys).getD x 0) = l.map fun x => xs.getD x 0 := by
  refine List.map_congr_left fun x hx => ?_
  obtain ⟨i, hi⟩ := List.getElem?_of_mem hx
  exact getD_append_left (h i x hi)

theorem values_step (rnd : Nat → Uuid) {s : XidState} (hg : s.Good) {c : XidCall} (hf : c.Fits s) (hs : ∀ x u, c ≠ .setUuid x u) :
    (s.step rnd c).values = s.values.step rnd c := by
  have he : ∀ ys, s.events.map (fun x => (s.xids ++ ys).getD x 0) = s.events.map fun x => s.xids.getD x 0 :=
    fun ys => map_uuid_append fun i x h => hg (.event i) x h
  have ha : ∀ ys, s.attrs.map (fun x => (s.xids ++ ys).getD x 0) = s.attrs.map fun x => s.xids.getD x 0 :=
    fun ys => map_uuid_append fun i x h => hg (.attr i) x h
  have h0 : ∀ u, (s.xids ++ [u]).getD s.xids.length 0 = u := by intro u; simp
  have h1 : ∀ u u', (s.xids ++ [u, u']).getD (s.xids.length + 1) 0 = u' := by intro u u'; simp
  cases c with
  | setUuid x u => exact absurd rfl (hs x u)
  | create => simp only [XidState.step, XidState.values, XidState.drawXid, IdValues.step, uuid_fun, he, ha]
  | make u => simp only [XidState.step, XidState.values, XidState.newXid, IdValues.step, uuid_fun, he, ha]
  | cloneXid x => simp only [XidState.step, XidState.values, XidState.newXid, IdValues.step, uuid_fun, he, ha]
  | parse text =>
    simp only [XidState.step, IdValues.step]
    cases xidParse text with
    | none => simp [XidState.values]
    | some u => simp only [XidState.values, XidState.newXid, uuid_fun, he, ha, Option.toList_some]
  | newEvent y =>
    cases y with
    | none => simp only [XidState.step, XidState.values, XidState.drawXid, IdValues.step, uuid_fun, he, ha, List.map_append, List.map_cons, List.map_nil, h0]
    | some y => simp [XidState.step, XidState.values, IdValues.step, uuid_fun]
  | setId e x => simp [XidState.step, XidState.values, IdValues.step, uuid_fun, List.map_set]
  | setValue a x => simp [XidState.step, XidState.values, IdValues.step, uuid_fun, List.map_set]
  | newAttr x => simp [XidState.step, XidState.values, IdValues.step, uuid_fun]
  | cloneEvent e =>
    simp only [XidState.step, XidState.values, XidState.drawXid, IdValues.step, uuid_fun, List.append_assoc, List.cons_append,
      List.nil_append, he, ha, List.map_append, List.map_cons, List.map_nil, h1]
  | cloneAttr a =>
    have h2 : s.attrs.map (fun x => s.xids.getD x 0) |>.getD a 0 |> (· = s.xids.getD (s.attrs.getD a 0) 0) := by
      have : a < s.attrs.length := hf
      simp [List.getD, List.getElem?_eq_getElem this]
    simp only [XidState.step, XidState.values, XidState.newXid, IdValues.step, uuid_fun, he, ha, List.map_append, List.map_cons, List.map_nil, h0]
    rw [h2]

/-- C164: in programs that do not call set_uuid, identifiers act as if they were values. -/
theorem c164_values {rnd : Nat → Uuid} {s t : XidState} {L : List XidCall} (hr : XidRun rnd s L t) (hg : s.Good)
    (hn : ∀ x u, .setUuid x u ∉ L) : t.values = L.foldl (IdValues.step rnd) s.values := by
  induction hr with
  | nil => rfl
  | @cons s c L t hf _ ih =>
    rw [List.foldl_cons, ← values_step rnd hg hf fun x u h => hn x u (h ▸ List.mem_cons_self)]
    exact ih (good_step rnd hg hf) fun x u h => hn x u (List.mem_cons_of_mem _ h)

/- Events in sets -/

/-- C164: which events are found in a set. -/
theorem c164_in_set (hash : Uuid → Int) (s : XidState) (set : List (Int × Nat)) (hm : ∀ p ∈ set, p.2 < s.events.length) {e : Nat} {u : Uuid}
    (hu : s.shows (.event e) = some u) :
    eventInSet hash s set e = true ↔ ∃ p ∈ set, p.1 = hash u ∧ s.shows (.event p.2) = some u := by
  have key : ∀ {i : Nat}, i < s.events.length → s.shows (.event i) = some (s.uuid (s.events.getD i 0)) := by
    intro i hi
    simp [XidState.shows, XidState.held, List.getD, List.getElem?_eq_getElem hi]
  have he : e < s.events.length := by
    cases h1 : s.events[e]? with
    | none => simp [XidState.shows, XidState.held, h1] at hu
    | some x => exact (List.getElem?_eq_some_iff.mp h1).1
  have h0 : s.uuid (s.events.getD e 0) = u := Option.some.inj ((key he).symm.trans hu)
  simp only [eventInSet, List.any_eq_true, Bool.and_eq_true, decide_eq_true_eq, Bool.or_eq_true, h0]
  constructor
  · rintro ⟨p, hp, h1, h2⟩
    refine ⟨p, hp, h1, ?_⟩
    rcases h2 with h2 | h2
    · rw [h2]; exact hu
    · rw [key (hm p hp), h2]
  · rintro ⟨p, hp, h1, h2⟩
    exact ⟨p, hp, h1, .inr (Option.some.inj ((key (hm p hp)).symm.trans h2))⟩

/-- C164: an event is found in a set it was added to, while it and the other members have the identifiers they had then. -/
theorem c164_found (hash : Uuid → Int) {s t : XidState} {set : List (Int × Nat)} {e : Nat} {u : Uuid} (hu : s.shows (.event e) = some u)
    (hm : ∀ p ∈ set, p.2 < s.events.length) (hl : s.events.length ≤ t.events.length) (he : t.shows (.event e) = some u)
    (hs : ∀ p ∈ set, t.shows (.event p.2) = s.shows (.event p.2)) : eventInSet hash t (eventAdd hash s set e) e = true := by
  have hlt : e < s.events.length := by
    cases h1 : s.events[e]? with
    | none => simp [XidState.shows, XidState.held, h1] at hu
    | some x => exact (List.getElem?_eq_some_iff.mp h1).1
  unfold eventAdd
  split
  · rename_i hin
    obtain ⟨p, hp, h1, h2⟩ := (c164_in_set hash s set hm hu).mp hin
    exact (c164_in_set hash t set (fun p hp => Nat.lt_of_lt_of_le (hm p hp) hl) he).mpr ⟨p, hp, h1, (hs p hp).trans h2⟩
  · refine (c164_in_set hash t _ (fun p hp => ?_) he).mpr ⟨_, List.mem_append_right _ List.mem_cons_self, ?_, he⟩
    · rcases List.mem_append.mp hp with hp | hp
      · exact Nat.lt_of_lt_of_le (hm p hp) hl
      · rw [List.mem_singleton.mp hp]; exact Nat.lt_of_lt_of_le hlt hl
    · have : s.shows (.event e) = some (s.uuid (s.events.getD e 0)) := by
        simp [XidState.shows, XidState.held, List.getD, List.getElem?_eq_getElem hlt]
      rw [Option.some.inj (this.symm.trans hu)]

/-- C164: an event that is the only member of a set is not found in it once its identifier has another hash. -/
theorem c164_lost (hash : Uuid → Int) {s t : XidState} {e : Nat} {u v : Uuid} (hu : s.shows (.event e) = some u)
    (hv : t.shows (.event e) = some v) (hl : s.events.length ≤ t.events.length) (hh : hash u ≠ hash v) :
    eventInSet hash t (eventAdd hash s [] e) e = false := by
  have hlt : e < s.events.length := by
    cases h1 : s.events[e]? with
    | none => simp [XidState.shows, XidState.held, h1] at hu
    | some x => exact (List.getElem?_eq_some_iff.mp h1).1
  have h0 : eventAdd hash s [] e = [(hash u, e)] := by
    have : s.shows (.event e) = some (s.uuid (s.events.getD e 0)) := by
      simp [XidState.shows, XidState.held, List.getD, List.getElem?_eq_getElem hlt]
    unfold eventAdd
    rw [Option.some.inj (this.symm.trans hu)]; rfl
  rw [h0, ← Bool.not_eq_true, c164_in_set hash t _ (fun p hp => by rw [List.mem_singleton.mp hp]; exact Nat.lt_of_lt_of_le hlt hl) hv]
  rintro ⟨p, hp, h1, _⟩
  rw [List.mem_singleton.mp hp] at h1
  exact hh h1

/-- The start: nothing has been made. -/
def noXids : XidState := ⟨[], [], [], 0⟩

theorem noXids_good : noXids.Good := by
  intro o x h
  cases o <;> simp [noXids, XidState.held] at h

/-- The full claim is false: two events are made with the same identifier; set_uuid on what the first returns from get_id changes the
second one too, and a set with the second one does not find it any more. -/
theorem c164_shared_refuted (rnd : Nat → Uuid) (hash : Uuid → Int) {u v : Uuid} (hh : hash u ≠ hash v) :
    let before := noXids.run rnd [.make u, .newEvent (some 0), .newEvent (some 0)]
    let after := before.step rnd (.setUuid 0 v)
    before.held (.event 0) = some 0 ∧ before.shows (.event 1) = some u ∧ after.shows (.event 1) = some v ∧
    eventInSet hash before (eventAdd hash before [] 1) 1 = true ∧ eventInSet hash after (eventAdd hash before [] 1) 1 = false := by
  intro before after
  have h1 : before.shows (.event 1) = some u := rfl
  have h2 : after.shows (.event 1) = some v := rfl
  exact ⟨rfl, h1, h2, c164_found hash h1 (by simp) (Nat.le_refl _) h1 (by simp), c164_lost hash h1 h2 (Nat.le_refl _) hh⟩

/- Examples -/

/-- An event, an ID attribute with the same XID (as `assign_id(event, event.get_id())` makes it), their clones. -/
def sharedIds : List XidCall := [.newEvent none, .newAttr 0, .cloneEvent 0, .cloneAttr 0]

example : (noXids.run (fun n => ⟨n % 100, by omega⟩) sharedIds) = ⟨[0, 1, 2, 0], [0, 2], [0, 3], 3⟩ := by decide +kernel

/-- set_uuid on the XID of the event: the attribute changes, the clones do not. -/
example : let t := noXids.run (fun n => ⟨n % 100, by omega⟩) (sharedIds ++ [.setUuid 0 77])
    t.shows (.event 0) = some 77 ∧ t.shows (.attr 0) = some 77 ∧ t.shows (.event 1) = some 2 ∧ t.shows (.attr 1) = some 0 := by decide +kernel

/-- The hypotheses of `c164_own`: the clone of the event keeps its XID for itself while others are set and replaced. -/
example (rnd : Nat → Uuid) : ∃ s t, XidRun rnd noXids sharedIds s ∧ s.held (.event 1) = some 2 ∧
    XidRun rnd s [.setUuid 0 77, .setId 0 1, .cloneEvent 1] t ∧ t.shows (.event 1) = s.shows (.event 1) := by
  have h1 : 0 < 1 := by decide
  have h2 : 0 < 4 := by decide
  have h3 : 0 < 2 := by decide
  have h4 : 1 < 4 := by decide
  have h5 : 1 < 2 := by decide
  exact ⟨_, _, .cons trivial (.cons h1 (.cons h1 (.cons h1 (.nil _)))), rfl, .cons h2 (.cons ⟨h3, h4⟩ (.cons h5 (.nil _))), rfl⟩

end Opy
