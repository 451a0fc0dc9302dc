import Verif.Model.Info
import Verif.Props.EventClasses
/-
Properties C24-C31 (time bounds, attribute statistics, log summaries and their cache), C72, C73.
-/
set_option linter.unusedSectionVars false

namespace Opy

theorem bind_ok {α β : Type} {x : Except PyErr α} {f : α → Except PyErr β} {b : β} :
    (x >>= f) = .ok b ↔ ∃ a, x = .ok a ∧ f a = .ok b := by
  cases x with
  | error e => simp [bind, Except.bind]
  | ok a => simp [bind, Except.bind]

/-! ## Specification: time bounds -/

/-- Registering dates one after the other. -/
def registerDates (b : TimeBounds) : List DateTime → Except PyErr TimeBounds
  | [] => .ok b
  | d :: ds => do
    let b ← b.register d
    registerDates b ds

/-- All dates are aware, or all are naive. -/
def OneAwareness (aw : Bool) (ds : List DateTime) : Prop := ∀ d ∈ ds, d.tz.isSome = aw

/-- `b` holds an earliest and a latest one of the dates; nothing if there are none. -/
def BoundsOf (b : TimeBounds) (ds : List DateTime) : Prop :=
  (ds = [] ∧ b.first = none ∧ b.last = none) ∨
  (∃ f l, b.first = some f ∧ b.last = some l ∧ f ∈ ds ∧ l ∈ ds ∧
    (∀ d ∈ ds, f.instant ≤ d.instant) ∧ (∀ d ∈ ds, d.instant ≤ l.instant))

theorem dt_lt {a b : DateTime} (h : a.tz.isSome = b.tz.isSome) : a.lt b = .ok (decide (a.instant < b.instant)) := by
  simp [DateTime.lt, h]

theorem register_step {aw : Bool} {b : TimeBounds} {ds : List DateTime} {d : DateTime} (hb : BoundsOf b ds)
    (ha : OneAwareness aw ds) (hd : d.tz.isSome = aw) :
    ∃ b', b.register d = .ok b' ∧ BoundsOf b' (ds ++ [d]) := by
  rcases hb with ⟨rfl, h1, h2⟩ | ⟨f, l, h1, h2, hf, hl, hmin, hmax⟩
  · refine ⟨⟨some d, some d⟩, by simp [TimeBounds.register, h1], Or.inr ⟨d, d, rfl, rfl, by simp, by simp, ?_, ?_⟩⟩ <;>
      intro x hx <;> simp at hx <;> subst hx <;> exact Int.le_refl _
  · have e1 := dt_lt (a := d) (b := f) (by rw [hd, ha f hf])
    have e2 := dt_lt (a := l) (b := d) (by rw [hd, ha l hl])
    have hlmem : ∀ {x}, x ∈ ds → x ∈ ds ++ [d] := fun h => List.mem_append_left _ h
    by_cases c1 : d.instant < f.instant
    · refine ⟨⟨some d, b.last⟩, by simp [TimeBounds.register, h1, e1, c1], Or.inr ⟨d, l, rfl, h2, by simp, hlmem hl, ?_, ?_⟩⟩
      · intro x hx
        rcases List.mem_append.1 hx with hx | hx
        · have := hmin x hx; omega
        · simp at hx; subst hx; exact Int.le_refl _
      · intro x hx
        rcases List.mem_append.1 hx with hx | hx
        · exact hmax x hx
        · simp at hx; subst hx; have := hmax f hf; omega
    · by_cases c2 : l.instant < d.instant
      · refine ⟨⟨b.first, some d⟩, by simp [TimeBounds.register, h1, h2, e1, e2, c1, c2],
          Or.inr ⟨f, d, h1, rfl, hlmem hf, by simp, ?_, ?_⟩⟩
        · intro x hx
          rcases List.mem_append.1 hx with hx | hx
          · exact hmin x hx
          · simp at hx; subst hx; omega
        · intro x hx
          rcases List.mem_append.1 hx with hx | hx
          · have := hmax x hx; omega
          · simp at hx; subst hx; exact Int.le_refl _
      · refine ⟨b, by simp [TimeBounds.register, h1, h2, e1, e2, c1, c2], Or.inr ⟨f, l, h1, h2, hlmem hf, hlmem hl, ?_, ?_⟩⟩
        · intro x hx
          rcases List.mem_append.1 hx with hx | hx
          · exact hmin x hx
          · simp at hx; subst hx; omega
        · intro x hx
          rcases List.mem_append.1 hx with hx | hx
          · exact hmax x hx
          · simp at hx; subst hx; omega

theorem registerDates_from {aw : Bool} : ∀ (ds : List DateTime) (b : TimeBounds) (done : List DateTime),
    BoundsOf b done → OneAwareness aw done → OneAwareness aw ds →
    ∃ b', registerDates b ds = .ok b' ∧ BoundsOf b' (done ++ ds) := by
  intro ds
  induction ds with
  | nil => intro b done h _ _; exact ⟨b, rfl, by simpa using h⟩
  | cons d ds ih =>
    intro b done h h1 h2
    obtain ⟨b1, e1, hb1⟩ := register_step h h1 (h2 d (by simp))
    have h3 : OneAwareness aw (done ++ [d]) := by
      intro x hx
      rcases List.mem_append.1 hx with hx | hx
      · exact h1 x hx
      · simp at hx; subst hx; exact h2 x (by simp)
    obtain ⟨b2, e2, hb2⟩ := ih b1 _ hb1 h3 (fun x hx => h2 x (List.mem_cons_of_mem _ hx))
    refine ⟨b2, ?_, by simpa using hb2⟩
    simp [registerDates, e1, e2, bind, Except.bind]

/-- C24: registering dates of one awareness never raises, and the bounds are the earliest and the
latest of them (None for no dates). -/
theorem c24_bounds {aw : Bool} (ds : List DateTime) (h : OneAwareness aw ds) :
    ∃ b, registerDates TimeBounds.empty ds = .ok b ∧ BoundsOf b ds := by
  have := registerDates_from ds TimeBounds.empty [] (Or.inl ⟨rfl, rfl, rfl⟩) (by intro x hx; simp at hx) h
  simpa using this

/-- The points in time of bounds. -/
def instants (b : TimeBounds) : Option Int × Option Int :=
  (b.first.map DateTime.instant, b.last.map DateTime.instant)

theorem BoundsOf_instants {b b' : TimeBounds} {ds ds' : List DateTime} (h : BoundsOf b ds) (h' : BoundsOf b' ds')
    (hm : ∀ d, d ∈ ds ↔ d ∈ ds') : instants b = instants b' := by
  unfold instants
  rcases h with ⟨rfl, h1, h2⟩ | ⟨f, l, h1, h2, hf, hl, hmin, hmax⟩
  · rcases h' with ⟨-, h3, h4⟩ | ⟨f', l', -, -, hf', -⟩
    · rw [h1, h2, h3, h4]
    · have := (hm f').2 hf'; simp at this
  · rcases h' with ⟨rfl, h3, h4⟩ | ⟨f', l', h3, h4, hf', hl', hmin', hmax'⟩
    · have := (hm f).1 hf; simp at this
    · rw [h1, h2, h3, h4]
      have a1 := hmin f' ((hm f').2 hf')
      have a2 := hmin' f ((hm f).1 hf)
      have a3 := hmax l' ((hm l').2 hl')
      have a4 := hmax' l ((hm l).1 hl)
      simp only [Option.map_some, Prod.mk.injEq, Option.some.injEq]
      omega

/-- C24: the order of registration does not matter (as points in time; of two datetimes that denote
the same moment in different zones the first one registered is kept). -/
theorem c24_order_irrelevant {aw : Bool} {ds ds' : List DateTime} (h : OneAwareness aw ds) (hp : ds.Perm ds') :
    ∃ b b', registerDates TimeBounds.empty ds = .ok b ∧ registerDates TimeBounds.empty ds' = .ok b' ∧
      instants b = instants b' := by
  obtain ⟨b, h1, h2⟩ := c24_bounds ds h
  obtain ⟨b', h3, h4⟩ := c24_bounds ds' (aw := aw) (fun d hd => h d (hp.mem_iff.2 hd))
  exact ⟨b, b', h1, h3, BoundsOf_instants h2 h4 (fun d => hp.mem_iff)⟩

theorem merge_bounds {aw : Bool} {b o : TimeBounds} {ds es : List DateTime} (hb : BoundsOf b ds) (ho : BoundsOf o es)
    (h1 : OneAwareness aw ds) (h2 : OneAwareness aw es) : ∃ b', b.merge o = .ok b' ∧ BoundsOf b' (ds ++ es) := by
  rcases ho with ⟨rfl, e1, e2⟩ | ⟨f, l, e1, e2, hf, hl, hmin, hmax⟩
  · exact ⟨b, by simp [TimeBounds.merge, e1, e2, TimeBounds.registerOpt, bind, Except.bind], by simpa using hb⟩
  · obtain ⟨b', k1, k2⟩ := registerDates_from (aw := aw) [f, l] b ds hb h1
      (by intro x hx; simp at hx; rcases hx with rfl | rfl; exact h2 _ hf; exact h2 _ hl)
    refine ⟨b', ?_, ?_⟩
    · simp only [registerDates, bind, Except.bind] at k1
      simp only [TimeBounds.merge, e1, e2, TimeBounds.registerOpt, bind, Except.bind]
      cases hx : b.register f with
      | error e => rw [hx] at k1; simp at k1
      | ok b1 =>
        rw [hx] at k1
        simp only at k1 ⊢
        cases hy : b1.register l with
        | error e => rw [hy] at k1; simp at k1
        | ok b2 => rw [hy] at k1; simpa using k1
    · rcases k2 with ⟨hnil, -⟩ | ⟨f', l', j1, j2, j3, j4, j5, j6⟩
      · simp at hnil
      · have sub : ∀ x, x ∈ ds ++ [f, l] → x ∈ ds ++ es := by
          intro x hx
          rcases List.mem_append.1 hx with hx | hx
          · exact List.mem_append_left _ hx
          · simp at hx
            rcases hx with rfl | rfl
            · exact List.mem_append_right _ hf
            · exact List.mem_append_right _ hl
        refine Or.inr ⟨f', l', j1, j2, sub _ j3, sub _ j4, ?_, ?_⟩
        · intro x hx
          rcases List.mem_append.1 hx with hx | hx
          · exact j5 x (List.mem_append_left _ hx)
          · have := j5 f (by simp); have := hmin x hx; omega
        · intro x hx
          rcases List.mem_append.1 hx with hx | hx
          · exact j6 x (List.mem_append_left _ hx)
          · have := j6 l (by simp); have := hmax x hx; omega

/-- C25: registering the bounds of `es` into those of `ds` never raises and gives the same points in
time as registering all dates directly. -/
theorem c25_merge {aw : Bool} (ds es : List DateTime) (h1 : OneAwareness aw ds) (h2 : OneAwareness aw es) :
    ∃ b o m a, registerDates TimeBounds.empty ds = .ok b ∧ registerDates TimeBounds.empty es = .ok o ∧
      b.merge o = .ok m ∧ registerDates TimeBounds.empty (ds ++ es) = .ok a ∧ instants m = instants a ∧
      BoundsOf m (ds ++ es) := by
  obtain ⟨b, e1, hb⟩ := c24_bounds ds h1
  obtain ⟨o, e2, ho⟩ := c24_bounds es h2
  obtain ⟨m, e3, hm⟩ := merge_bounds hb ho h1 h2
  obtain ⟨a, e4, ha⟩ := c24_bounds (ds ++ es) (aw := aw) (by
    intro x hx
    rcases List.mem_append.1 hx with hx | hx
    · exact h1 x hx
    · exact h2 x hx)
  exact ⟨b, o, m, a, e1, e2, e3, e4, BoundsOf_instants hm ha (fun _ => Iff.rfl), hm⟩

/-- C25: a date of the same awareness is within the bounds exactly when it is not before the
earliest and not after the latest registered date; in particular every registered date is. -/
theorem c25_within {aw : Bool} {b : TimeBounds} {ds : List DateTime} (hb : BoundsOf b ds) (ha : OneAwareness aw ds)
    {d : DateTime} (hd : d.tz.isSome = aw) :
    b.isWithin d = .ok (decide ((∃ x ∈ ds, x.instant ≤ d.instant) ∧ (∃ x ∈ ds, d.instant ≤ x.instant))) := by
  rcases hb with ⟨rfl, h1, h2⟩ | ⟨f, l, h1, h2, hf, hl, hmin, hmax⟩
  · simp [TimeBounds.isWithin, h1]
  · have ef : d.eq f = decide (d.instant = f.instant) := by
      simp only [DateTime.eq, hd, ha f hf, if_true]; rfl
    have el : d.eq l = decide (d.instant = l.instant) := by
      simp only [DateTime.eq, hd, ha l hl, if_true]; rfl
    have e1 := dt_lt (a := f) (b := d) (by rw [hd, ha f hf])
    have e2 := dt_lt (a := d) (b := l) (by rw [hd, ha l hl])
    have iff1 : ((∃ x ∈ ds, x.instant ≤ d.instant) ∧ (∃ x ∈ ds, d.instant ≤ x.instant)) ↔
        f.instant ≤ d.instant ∧ d.instant ≤ l.instant := by
      constructor
      · rintro ⟨⟨x, hx, hx'⟩, ⟨y, hy, hy'⟩⟩
        have := hmin x hx; have := hmax y hy; omega
      · rintro ⟨h3, h4⟩; exact ⟨⟨f, hf, h3⟩, ⟨l, hl, h4⟩⟩
    have hfl := hmin l hl
    simp only [TimeBounds.isWithin, h1, h2, ef, el, decide_eq_true_eq, iff1]
    by_cases c1 : d.instant = f.instant
    · simp [c1, hfl]
    · simp only [c1, if_false]
      by_cases c2 : d.instant = l.instant
      · simp [c2, hfl]
      · simp only [c2, if_false, e1, bind, Except.bind, decide_eq_true_eq]
        by_cases c3 : f.instant < d.instant
        · simp only [c3, if_true, e2]
          congr 1
          rw [decide_eq_decide]
          omega
        · simp only [c3, if_false]
          congr 1
          symm
          rw [decide_eq_false_iff_not]
          omega

theorem c25_registered_within {aw : Bool} {b : TimeBounds} {ds : List DateTime} (hb : BoundsOf b ds)
    (ha : OneAwareness aw ds) {d : DateTime} (hd : d ∈ ds) : b.isWithin d = .ok true := by
  rw [c25_within hb ha (ha d hd)]
  simp only [Except.ok.injEq, decide_eq_true_eq]
  exact ⟨⟨d, hd, Int.le_refl _⟩, ⟨d, hd, Int.le_refl _⟩⟩

/-! ## C26 -/

section
variable {F : Type} [PyFloat F]

/-- How many of the attributes have this key. -/
def keyCount (k : Str) (as : List (Attr F)) : Nat := (as.map Attr.key).count k

/-- What statistics hold after the attributes `as`. -/
structure Stats (i : AttrInfo) (as : List (Attr F)) : Prop where
  total : i.total = as.length
  freq : ∀ k, dget k i.freq = if keyCount k as = 0 then none else some (keyCount k as)
  keys : ∀ k, k ∈ dkeys i.keyMap ↔ k ∈ as.map Attr.key
  nodup : (dkeys i.freq).Nodup
  types : ∀ p ∈ i.typeMap, p.2 = []
  exts : i.extMap = [] ∧ i.noExt = []

theorem Stats.empty : Stats (F := F) AttrInfo.empty [] :=
  ⟨rfl, by intro k; simp [AttrInfo.empty, keyCount], by intro k; simp [AttrInfo.empty, dkeys],
    by simp [AttrInfo.empty, dkeys], by simp [AttrInfo.empty], rfl, rfl⟩

theorem mem_dset {κ α : Type} [DecidableEq κ] {k : κ} {v : α} {d : List (κ × α)} {p : κ × α} (h : p ∈ dset k v d) :
    p ∈ d ∨ p = (k, v) := by
  induction d with
  | nil => simp [dset] at h; exact Or.inr h
  | cons q r ih =>
    obtain ⟨k', v'⟩ := q
    simp only [dset] at h
    split at h
    · next e =>
      rcases List.mem_cons.1 h with h | h
      · subst e; exact Or.inr h
      · exact Or.inl (List.mem_cons_of_mem _ h)
    · rcases List.mem_cons.1 h with h | h
      · exact Or.inl (by simp [h])
      · rcases ih h with h | h
        · exact Or.inl (List.mem_cons_of_mem _ h)
        · exact Or.inr h

theorem keyCount_snoc (k : Str) (as : List (Attr F)) (a : Attr F) :
    keyCount k (as ++ [a]) = keyCount k as + if a.key = k then 1 else 0 := by
  unfold keyCount
  simp [List.count_append, List.count_cons]

theorem Stats.step {i i' : AttrInfo} {as : List (Attr F)} {a : Attr F} (h : Stats i as) (hr : i.register a = .ok i') :
    Stats i' (as ++ [a]) := by
  unfold AttrInfo.register at hr
  split at hr
  · next hk =>
    rw [bind_ok] at hr
    obtain ⟨p, hp, hr⟩ := hr
    simp only [Except.ok.injEq] at hr
    subst hr
    have hnk : a.key ∉ as.map Attr.key := by
      rw [← h.keys]; exact dget_eq_none.1 hk
    have hc : keyCount a.key as = 0 := List.count_eq_zero.2 hnk
    refine ⟨by simp [h.total], ?_, ?_, nodup_dset h.nodup, ?_, h.exts⟩
    · intro k
      simp only [dget_dset, keyCount_snoc]
      by_cases e : k = a.key
      · subst e; simp [hc]
      · simp [e, Ne.symm e, h.freq]
    · intro k
      simp only [dkeys_dset, List.map_append, List.mem_append]
      have := h.keys k
      split
      · next hmem => exact absurd ((h.keys _).1 hmem) hnk
      · simp [this]
    · intro q hq
      rcases mem_dset hq with hq | rfl
      · exact h.types q hq
      · simp only
        cases ht : dget p.kind i.typeMap with
        | none => rfl
        | some s => exact h.types _ (dget_mem ht)
  · next q hk =>
    split at hr
    · simp at hr
    · next n hn =>
      simp only [Except.ok.injEq] at hr
      subst hr
      have hmem : a.key ∈ as.map Attr.key := (h.keys _).1 (dget_isSome.1 ⟨_, hk⟩)
      have hc : keyCount a.key as ≠ 0 := fun e => List.count_eq_zero.1 e hmem
      have hn' : n = keyCount a.key as := by
        rw [h.freq, if_neg hc] at hn; simpa using hn.symm
      refine ⟨by simp [h.total], ?_, ?_, nodup_dset h.nodup, h.types, h.exts⟩
      · intro k
        simp only [dget_dset, keyCount_snoc]
        by_cases e : k = a.key
        · subst e; simp [hn']
        · simp [e, Ne.symm e, h.freq]
      · intro k
        rw [h.keys]
        simp only [List.map_append, List.mem_append]
        constructor
        · exact Or.inl
        · rintro (h' | h')
          · exact h'
          · simp at h'; subst h'; simpa using hmem

theorem registerAll_append (i : AttrInfo) (as bs : List (Attr F)) :
    i.registerAll (as ++ bs) = (i.registerAll as >>= fun j => j.registerAll bs) := by
  induction as generalizing i with
  | nil => rfl
  | cons a as ih =>
    simp only [List.cons_append, AttrInfo.registerAll]
    cases hr : i.register a with
    | error e => rfl
    | ok j => exact ih j

theorem Stats.all {as : List (Attr F)} : ∀ {i i' : AttrInfo} {done : List (Attr F)}, Stats i done →
    i.registerAll as = .ok i' → Stats i' (done ++ as) := by
  induction as with
  | nil => intro i i' done h hr; simp [AttrInfo.registerAll] at hr; subst hr; simpa using h
  | cons a as ih =>
    intro i i' done h hr
    simp only [AttrInfo.registerAll] at hr
    rw [bind_ok] at hr
    obtain ⟨j, hj, hr⟩ := hr
    have := ih (h.step hj) hr
    simpa using this

theorem freq_sum : ∀ {d : List (Str × Nat)} {ks : List Str}, (dkeys d).Nodup →
    (∀ k, dget k d = if ks.count k = 0 then none else some (ks.count k)) → (dvals d).sum = ks.length := by
  intro d ks hn hd
  have hval : dvals d = (dkeys d).map (fun k => ks.count k) := by
    unfold dvals dkeys
    rw [List.map_map]
    apply List.map_congr_left
    intro p hp
    have h1 := mem_dget hn (k := p.1) (v := p.2) hp
    rw [hd] at h1
    split at h1
    · simp at h1
    · simp at h1; exact h1.symm
  rw [hval]
  apply count_sum hn
  intro s hs
  apply dget_isSome.1
  rw [hd]
  have : ks.count s ≠ 0 := fun e => List.count_eq_zero.1 e hs
  exact ⟨ks.count s, by simp [this]⟩

/-- C26: after any sequence of registrations that went through, the frequency of a key is the number
of registrations with that key (None if there was none), the relative frequency is that number over
the number of registrations, and the absolute frequencies add up to that number. -/
theorem c26_counts {as : List (Attr F)} {i : AttrInfo} (h : AttrInfo.empty.registerAll as = .ok i) :
    (∀ k, i.frequency k = if keyCount k as = 0 then none else some (keyCount k as)) ∧
    (∀ k, keyCount k as ≠ 0 → i.relative k = .ok (keyCount k as, as.length)) ∧
    (dvals i.freq).sum = as.length ∧ (∀ k, k ∈ dkeys i.freq ↔ k ∈ as.map Attr.key) := by
  have hs := Stats.all Stats.empty h
  simp only [List.nil_append] at hs
  refine ⟨hs.freq, ?_, ?_, ?_⟩
  · intro k hk
    simp [AttrInfo.relative, hs.freq, hk, hs.total]
  · have := freq_sum hs.nodup (ks := as.map Attr.key) hs.freq
    simpa using this
  · intro k
    rw [← dget_isSome, hs.freq]
    have : keyCount k as = 0 ↔ k ∉ as.map Attr.key := List.count_eq_zero
    constructor
    · rintro ⟨v, hv⟩
      apply Classical.byContradiction
      intro hk
      rw [if_pos (this.2 hk)] at hv; simp at hv
    · intro hk
      exact ⟨_, if_neg (fun e => (this.1 e) hk)⟩

/-! ### When registration goes through -/

/-- The value has the Python type its class asks for (collections carry no value). -/
def TypedVal (a : Attr F) : Prop :=
  match a.kind, a.val with
  | .literal, .str _ => True
  | .discrete, .int _ => True
  | .boolean, .bool _ => True
  | .id, .xid _ => True
  | .timestamp, .dt _ => True
  | .continuous, .float _ => True
  | .list, .none => True
  | .container, .none => True
  | _, _ => False

/-- Neither timestamp nor list nor container. -/
def SimpleKind (a : Attr F) : Prop :=
  a.kind = .literal ∨ a.kind = .discrete ∨ a.kind = .continuous ∨ a.kind = .boolean ∨ a.kind = .id

/-- The first attribute of every key is of a simple kind. -/
def FirstSimple (as : List (Attr F)) : Prop :=
  ∀ pre a post, as = pre ++ a :: post → a.key ∉ pre.map Attr.key → SimpleKind a

theorem deriveProto_ok {a : Attr F} (h : TypedVal a) : (∃ p, deriveProto a = .ok p) ↔ SimpleKind a := by
  obtain ⟨k, key, e, v, m, c⟩ := a
  cases k <;> cases v <;> simp_all [TypedVal, Attr.kind, Attr.val, deriveProto, SimpleKind]

theorem register_ok_iff {i : AttrInfo} {done : List (Attr F)} (hs : Stats i done) {a : Attr F} (ht : TypedVal a) :
    (∃ j, i.register a = .ok j) ↔ (a.key ∈ done.map Attr.key ∨ SimpleKind a) := by
  unfold AttrInfo.register
  cases hk : dget a.key i.keyMap with
  | none =>
    have hn : a.key ∉ done.map Attr.key := by rw [← hs.keys]; exact dget_eq_none.1 hk
    have hd := deriveProto_ok ht
    simp only [hn, false_or]
    rw [← hd]
    constructor
    · rintro ⟨j, hj⟩
      rw [bind_ok] at hj
      obtain ⟨p, hp, -⟩ := hj
      exact ⟨p, hp⟩
    · rintro ⟨p, hp⟩
      exact ⟨_, by rw [hp]; rfl⟩
  | some q =>
    have hm : a.key ∈ done.map Attr.key := (hs.keys _).1 (dget_isSome.1 ⟨_, hk⟩)
    have hc : keyCount a.key done ≠ 0 := fun e => List.count_eq_zero.1 e hm
    have hf := hs.freq a.key
    rw [if_neg hc] at hf
    simp only [hf]
    exact ⟨fun _ => Or.inl hm, fun _ => ⟨_, rfl⟩⟩

theorem registerAll_ok_iff : ∀ {as : List (Attr F)} {i : AttrInfo} {done : List (Attr F)}, Stats i done →
    (∀ a ∈ as, TypedVal a) → ((∃ j, i.registerAll as = .ok j) ↔
      ∀ pre a post, as = pre ++ a :: post → a.key ∉ done.map Attr.key → a.key ∉ pre.map Attr.key → SimpleKind a) := by
  intro as
  induction as with
  | nil =>
    intro i done _ _
    exact ⟨fun _ pre a post h => by simp at h, fun _ => ⟨i, rfl⟩⟩
  | cons x as ih =>
    intro i done hs ht
    have hr := register_ok_iff hs (ht x (by simp))
    simp only [AttrInfo.registerAll]
    constructor
    · rintro ⟨j, hj⟩
      rw [bind_ok] at hj
      obtain ⟨i1, h1, h2⟩ := hj
      intro pre a post heq hnd hnp
      cases pre with
      | nil =>
        simp at heq
        obtain ⟨rfl, rfl⟩ := heq
        rcases hr.1 ⟨_, h1⟩ with h | h
        · exact absurd h hnd
        · exact h
      | cons y pre =>
        simp only [List.cons_append, List.cons.injEq] at heq
        obtain ⟨rfl, rfl⟩ := heq
        have := (ih (hs.step h1) (fun a ha => ht a (List.mem_cons_of_mem _ ha))).1 ⟨_, h2⟩ pre a post rfl
        apply this
        · simp only [List.map_cons, List.mem_cons, not_or] at hnp
          simp only [List.map_append, List.mem_append, List.map_cons, List.map_nil, List.mem_singleton, not_or]
          exact ⟨hnd, hnp.1⟩
        · simp only [List.map_cons, List.mem_cons, not_or] at hnp
          exact hnp.2
    · intro h
      have hx : x.key ∈ done.map Attr.key ∨ SimpleKind x := by
        by_cases hm : x.key ∈ done.map Attr.key
        · exact Or.inl hm
        · exact Or.inr (h [] x as rfl hm (by simp))
      obtain ⟨i1, h1⟩ := hr.2 hx
      obtain ⟨j, hj⟩ := (ih (hs.step h1) (fun a ha => ht a (List.mem_cons_of_mem _ ha))).2 (by
        intro pre a post heq hnd hnp
        simp only [List.map_append, List.mem_append, List.map_cons, List.map_nil, List.mem_singleton, not_or] at hnd
        apply h (x :: pre) a post (by rw [heq]; rfl) hnd.1
        simp only [List.map_cons, List.mem_cons, not_or]
        exact ⟨hnd.2, hnp⟩)
      exact ⟨j, by rw [h1]; exact hj⟩

/-- C26: registering goes through exactly when the first attribute of every key is neither a
timestamp nor a list nor a container. -/
theorem c26_goes_through_iff {as : List (Attr F)} (ht : ∀ a ∈ as, TypedVal a) :
    (∃ i, AttrInfo.empty.registerAll as = .ok i) ↔ FirstSimple as := by
  rw [registerAll_ok_iff Stats.empty ht]
  unfold FirstSimple
  simp

/-! ## C27 -/

/-- The claim of C27 about types, for one history and one state. -/
def TypeQueryComplete (as : List (Attr F)) (i : AttrInfo) : Prop :=
  ∀ a ∈ as, a.key ∈ i.keysForType a.kind

/-- C27: whatever was registered, the queries by type and by extension are empty. -/
theorem c27_always_empty {as : List (Attr F)} {i : AttrInfo} (h : AttrInfo.empty.registerAll as = .ok i) :
    (∀ k, i.forType k = [] ∧ i.keysForType k = []) ∧ (∀ e, i.forExtension e = []) := by
  have hs := Stats.all Stats.empty h
  have ht : ∀ k, i.forType k = [] := by
    intro k
    unfold AttrInfo.forType
    cases hd : dget k i.typeMap with
    | none => rfl
    | some s => exact hs.types _ (dget_mem hd)
  refine ⟨fun k => ⟨ht k, by simp [AttrInfo.keysForType, ht]⟩, ?_⟩
  intro e
  cases e with
  | none => simp [AttrInfo.forExtension, AttrInfo.withoutExtension, hs.exts.2]
  | some e => simp [AttrInfo.forExtension, hs.exts.1]

/-- C27 is false: one registered literal is not found by its type. -/
theorem c27_refuted : ∃ (as : List (Attr F)) (i : AttrInfo), AttrInfo.empty.registerAll as = .ok i ∧
    ¬ TypeQueryComplete as i := by
  refine ⟨[.mk .literal py!"k" none (.str py!"v") [] []], _, rfl, ?_⟩
  intro h
  have := h _ (List.mem_singleton.2 rfl)
  simp [AttrInfo.keysForType, AttrInfo.forType, Attr.kind, dget, dset, AttrInfo.empty] at this

end

end Opy
