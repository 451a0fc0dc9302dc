import Verif.Model.HeapCopy
import Verif.Props.HeapSave
import Verif.Props.Unshared
import Verif.Props.XmlText
/-
Property C177: saving a log and loading the file makes an independent copy.
-/
set_option linter.unusedSectionVars false
namespace Opy

section
variable {F : Type}

/-! ## What a log shows depends on its objects only -/

theorem Reach.via {h : Heap F} {a b c : Ref} (h1 : Reach h a b) (h2 : Reach h b c) : Reach h a c := by
  induction h2 with
  | refl => exact h1
  | step _ ho hc ih => exact .step ih ho hc

mutual
theorem Sees.frame {h h2 : Heap F} : ∀ {x : Attr F} {r : Ref}, Sees h x r → (∀ s, Reach h r s → h2.get s = h.get s) → Sees h2 x r
  | .mk k key e v m c, r, hs, hf => by
    simp only [Sees] at hs ⊢
    obtain ⟨mr, cr, g, hs⟩ := hs
    refine ⟨mr, cr, (hf r .refl).trans g, ?_⟩
    by_cases hk : k.isCollection = true
    · rw [if_pos hk] at hs ⊢
      refine ⟨hs.1, hs.2.frame fun s hs' t ht => hf t (.via (.step .refl g (by simp [Obj.refs, hs'])) ht)⟩
    · rw [if_neg hk] at hs ⊢
      obtain ⟨h1, d, g2, h2'⟩ := hs
      have rm : Reach h r mr := .step .refl g (by simp [Obj.refs])
      exact ⟨h1, d, (hf mr rm).trans g2, h2'.frame fun p hp t ht => hf t (.via (.step rm g2 (List.mem_map.2 ⟨p, hp, rfl⟩)) ht)⟩
theorem SeesMap.frame {h h2 : Heap F} : ∀ {m : List (Str × Attr F)} {d : List (Str × Ref)}, SeesMap h m d →
    (∀ p ∈ d, ∀ s, Reach h p.2 s → h2.get s = h.get s) → SeesMap h2 m d
  | [], d, hs, _ => hs
  | (n, x) :: m, d, hs, hf => by
    simp only [SeesMap] at hs ⊢
    obtain ⟨r, d', rfl, h1, h2'⟩ := hs
    exact ⟨r, d', rfl, h1.frame (hf (n, r) (by simp)), h2'.frame fun p hp => hf p (List.mem_cons_of_mem _ hp)⟩
theorem SeesList.frame {h h2 : Heap F} : ∀ {m : List (Attr F)} {d : List Ref}, SeesList h m d →
    (∀ r ∈ d, ∀ s, Reach h r s → h2.get s = h.get s) → SeesList h2 m d
  | [], d, hs, _ => hs
  | x :: m, d, hs, hf => by
    simp only [SeesList] at hs ⊢
    obtain ⟨r, d', rfl, h1, h2'⟩ := hs
    exact ⟨r, d', rfl, h1.frame (hf r (by simp)), h2'.frame fun p hp => hf p (List.mem_cons_of_mem _ hp)⟩
end

theorem denAll_frame {α : Type} {P Q : α → Ref → Prop} : ∀ {xs : List α} {rs : List Ref}, DenAll P xs rs → (∀ r ∈ rs, ∀ x, P x r → Q x r) → DenAll Q xs rs
  | [], _, h, _ => h
  | x :: xs, rs, h, hf => by
    obtain ⟨r, rs', rfl, h1, h2⟩ := h
    exact ⟨r, rs', rfl, hf r (by simp) x h1, denAll_frame h2 fun r hr => hf r (List.mem_cons_of_mem _ hr)⟩

theorem SeesLog.frame {h h2 : Heap F} {x : Log F} {l : Ref} (hs : SeesLog h x l) (hf : ∀ s, Reach h l s → h2.get s = h.get s) : SeesLog h2 x l := by
  obtain ⟨lo, d, g1, g2, e1, e2, e3, s1, s2, s3, s4⟩ := hs
  have rm : Reach h l lo.map := .step .refl g1 (by simp [Obj.refs])
  refine ⟨lo, d, (hf l .refl).trans g1, (hf _ rm).trans g2, e1, e2, e3, ?_, ?_, ?_, ?_⟩
  · exact s1.frame fun p hp t ht => hf t (.via (.step rm g2 (List.mem_map.2 ⟨p, hp, rfl⟩)) ht)
  · exact s2.frame fun p hp t ht => hf t (.via (.step .refl g1 (by simp [Obj.refs, hp])) ht)
  · exact s3.frame fun p hp t ht => hf t (.via (.step .refl g1 (by simp [Obj.refs, hp])) ht)
  · refine denAll_frame s4 fun t ht y hy => ?_
    have rt : Reach h l t := .step .refl g1 (by simp [Obj.refs, ht])
    obtain ⟨m, d, es, g3, g4, s5, s6⟩ := hy
    have rm : Reach h l m := .step rt g3 (by simp [Obj.refs])
    refine ⟨m, d, es, (hf t rt).trans g3, (hf m rm).trans g4, s5.frame fun p hp t ht => hf t (.via (.step rm g4 (List.mem_map.2 ⟨p, hp, rfl⟩)) ht), ?_⟩
    refine denAll_frame s6 fun e he z hz => ?_
    have re : Reach h l e := .step rt g3 (by simp [Obj.refs, he])
    obtain ⟨m, d, g5, g6, s7⟩ := hz
    have rm : Reach h l m := .step re g5 (by simp [Obj.refs])
    exact ⟨m, d, (hf e re).trans g5, (hf m rm).trans g6, s7.frame fun p hp t ht => hf t (.via (.step rm g6 (List.mem_map.2 ⟨p, hp, rfl⟩)) ht)⟩

theorem wellFormed_sound {h : Heap F} (hw : WellFormed h) : Sound h := by
  have lt : ∀ {r : Ref} {k : ObjCls}, IsA h r k → r < h.size := by
    intro r k hi
    obtain ⟨o, g, _⟩ := hi
    exact get_lt g
  intro r o g c hc
  have ho := hw r o g
  cases o with
  | map d =>
    obtain ⟨p, hp, rfl⟩ := List.mem_map.1 hc
    exact lt (ho.2 p hp)
  | attr k key e v m cs =>
    rcases List.mem_cons.1 hc with rfl | hc
    · exact lt ho.1
    · exact lt (ho.2 c hc)
  | event u m =>
    simp only [Obj.refs, List.mem_singleton] at hc
    subst hc
    exact lt ho
  | trace m es =>
    rcases List.mem_cons.1 hc with rfl | hc
    · exact lt ho.1
    · exact lt (ho.2 c hc)
  | log lo =>
    simp only [Obj.refs, List.mem_cons, List.mem_append] at hc
    obtain ⟨h1, h2, h3, h4⟩ := ho
    rcases hc with rfl | (hc | hc) | hc
    · exact lt h1
    · exact lt (h2 c hc)
    · exact lt (h3 c hc)
    · exact lt (h4 c hc)
  | pyNone => exact ho.elim

variable [PyFloat F]

/-- The log is copied: the objects that were there are as before, the new log has this content, the two logs have no object in common, and
nothing stands in two places of the new log. -/
structure Copied (h h' : Heap F) (c : Content F) (l l' : Ref) : Prop where
  old : ∀ r, r < h.size → h'.get r = h.get r
  content : DenLog h' h.size h'.size c l'
  apart : ∀ r, ¬ (Reach h' l r ∧ Reach h' l' r)
  once : ∀ ps qs r, Leads h' l' ps r → Leads h' l' qs r → ps = qs

theorem copied_of_holds {mgr : ExtMgr} {modern : Bool} {h : Heap F} (hs : Sound h) {x : Log F} {l : Ref} (hx : SeesLog h x l) {n : Nat} (hn : x.levels ≤ n)
    {c : Content F} (hc : FileHolds mgr modern x c) (rnd : Nat → Uuid) (given : Option (Factory F)) :
    ∃ l' h', copyByFile modern given (stdFactory F rnd) mgr h n l = .ok (some l', h') ∧ Copied h h' c l l' := by
  obtain ⟨text, h1, h2⟩ := hc
  obtain ⟨l', h', h3, h4, h5⟩ := h2 rnd given h
  have e : saveObjectsText modern h n l = .ok text := by
    simp only [saveXes] at h1
    simp only [saveObjectsText, (c169_tree hx n).1 hn, h1]
  refine ⟨l', h', by simp only [copyByFile, e, ok_bind', h3], h5.old, h4, ?_, ?_⟩
  · obtain ⟨es, _, h6⟩ := bind_ok.1 h3
    obtain ⟨lo, d, g, _⟩ := hx
    intro r hr
    have a := (c147_old hs h6 (get_lt g) hr.1).1
    have b := ((c147_new h6).2 r hr.2).1
    omega
  · obtain ⟨es, _, h6⟩ := bind_ok.1 h3
    exact fun ps qs r => c176_once h6

/-- C177: a log without loops and with texts that a file can hold is copied by saving and loading it, with the content that files keep (C39). -/
theorem c177_copy (hf : FloatText F) (mgr : ExtMgr) (modern : Bool) {h : Heap F} (hs : Sound h) {x : Log F} {l : Ref} (hx : SeesLog h x l)
    (hw : WritableLog x) (hl : LegalLog x) {n : Nat} (hn : x.levels ≤ n) (rnd : Nat → Uuid) (given : Option (Factory F)) :
    ∃ l' h', copyByFile modern given (stdFactory F rnd) mgr h n l = .ok (some l', h') ∧ Copied h h' (norm mgr (valueBack modern) x.content) l l' :=
  copied_of_holds hs hx hn (c110_file hf mgr modern hw hl) rnd given

/-- C177: ... and one that files keep as it is (C38) with the same content. -/
theorem c177_canonical (hf : FloatText F) (mgr : ExtMgr) (modern : Bool) {h : Heap F} (hs : Sound h) {x : Log F} {l : Ref} (hx : SeesLog h x l)
    (hw : WritableLog x) (hl : LegalLog x) (hc : CanonContent mgr (valueBack modern) x.content) {n : Nat} (hn : x.levels ≤ n) (rnd : Nat → Uuid)
    (given : Option (Factory F)) : ∃ l' h', copyByFile modern given (stdFactory F rnd) mgr h n l = .ok (some l', h') ∧
      Copied h h' { x.content with features := xesVersion } l l' :=
  copied_of_holds hs hx hn (c110_canonical hf mgr modern hw hl hc) rnd given

/-- C177: whatever happens to the objects of the copy (or to others), as long as those of the log stay, the log shows what it showed; and
the other way round. -/
theorem c177_apart {h h' : Heap F} (hs : Sound h) {c : Content F} {x : Log F} {l l' : Ref} (hx : SeesLog h x l) (hc : Copied h h' c l l') :
    SeesLog h' x l ∧
    (∀ h2 : Heap F, (∀ r, ¬ Reach h' l' r → h2.get r = h'.get r) → SeesLog h2 x l) ∧
    ∀ (h2 : Heap F) (y : Log F), SeesLog h' y l' → (∀ r, ¬ Reach h' l r → h2.get r = h'.get r) → SeesLog h2 y l' := by
  have s1 : SeesLog h' x l := by
    refine hx.frame fun s hr => hc.old s ?_
    obtain ⟨lo, d, g, _⟩ := hx
    induction hr with
    | refl => exact get_lt g
    | step _ ho hm _ => exact hs _ _ ho _ hm
  exact ⟨s1, fun h2 hf => s1.frame fun s hr => hf s fun hr' => hc.apart s ⟨hr, hr'⟩, fun h2 y hy hf => hy.frame fun s hr => hf s fun hr' => hc.apart s ⟨hr', hr⟩⟩

/-- C177: a log that lies within itself somewhere is never copied. -/
theorem c177_loop (modern : Bool) (given : Option (Factory F)) (reg : Factory F) (mgr : ExtMgr) {h : Heap F} {l : Ref} (hp : HasLoop h l) (n : Nat)
    (p : Option Ref × Heap F) : copyByFile modern given reg mgr h n l ≠ .ok p := by
  intro he
  obtain ⟨text, h1, _⟩ := bind_ok.1 he
  obtain ⟨x, h2, _⟩ := bind_ok.1 h1
  exact c169_loop hp n x h2

/-- C177: a log that a program has made (loading files, cloning, setting, appending, deleting) shows a tree, and is copied if the tree can be
written and its texts are legal, or lies within itself somewhere and is not. -/
theorem c177_program (hf : FloatText F) {env : ApiEnv} {h h' : Heap F} (hw : WellFormed h) (hP : ProtosOk h env.protos) (hr : Reaches env h h') {l : Ref}
    (hl : IsA h' l .log) (mgr : ExtMgr) (modern : Bool) (rnd : Nat → Uuid) (given : Option (Factory F)) :
    (¬ HasLoop h' l ∧ ∃ x, SeesLog h' x l ∧ (WritableLog x → LegalLog x → ∀ n, x.levels ≤ n →
      ∃ l' h2, copyByFile modern given (stdFactory F rnd) mgr h' n l = .ok (some l', h2) ∧ Copied h' h2 (norm mgr (valueBack modern) x.content) l l')) ∨
    (HasLoop h' l ∧ ∀ n p, copyByFile modern given (stdFactory F rnd) mgr h' n l ≠ .ok p) := by
  rcases c169_program hw hP hr hl with ⟨h1, x, h2, _⟩ | ⟨h1, _, _⟩
  · exact Or.inl ⟨h1, x, h2, fun k1 k2 n hn => c177_copy hf mgr modern (wellFormed_sound (c159_reachable hw hP hr).1) h2 k1 k2 hn rnd given⟩
  · exact Or.inr ⟨h1, fun n p => c177_loop modern given _ mgr h1 n p⟩

/-- C177: the copy can be copied again, and what is saved is the same document as that of the content. -/
theorem c177_again {h h' : Heap F} {L : Log F} {l l' : Ref} (hc : Copied h h' L.content l l') :
    ∃ y, SeesLog h' y l' ∧ ¬ HasLoop h' l' ∧ ∀ n, y.levels ≤ n → saveObjects h' n l' = serializeXes L := by
  obtain ⟨y, h1, h2⟩ := c169_loaded hc.content
  exact ⟨y, h1, seesLog_noLoop h1, fun n hn => by rw [(c169_tree h1 n).1 hn, h2]⟩

end

/-! ## Example -/

/-- A log (object 5) with a trace that holds one event twice. -/
def exTwice : Heap ToyFloat :=
  ⟨[.map [], .attr .literal py!"b" none (.str py!"x") 0 [], .map [(py!"b", 1)], .event 5 2, .trace 0 [3, 3], .log ⟨0, [], [], [], [], [], [4]⟩], 0⟩

/-- The tree that it shows. -/
def exTwiceTree : Log ToyFloat :=
  let e : Event ToyFloat := ⟨5, [(py!"b", .mk .literal py!"b" none (.str py!"x") [] [])]⟩
  ⟨[], [], [], [], [], [], [⟨[], [e, e]⟩]⟩

theorem exTwice_sees : SeesLog exTwice exTwiceTree 5 := by
  have b : Sees exTwice (.mk .literal py!"b" none (.str py!"x") [] []) 1 := by
    simp only [Sees]
    exact ⟨0, [], rfl, trivial, [], rfl, rfl⟩
  have m : SeesMap exTwice [(py!"b", .mk .literal py!"b" none (.str py!"x") [] [])] [(py!"b", 1)] := by
    simp only [SeesMap]
    exact ⟨1, [], rfl, b, rfl⟩
  have e : SeesEvent exTwice ⟨5, [(py!"b", .mk .literal py!"b" none (.str py!"x") [] [])]⟩ 3 := ⟨2, _, rfl, rfl, m⟩
  exact ⟨_, [], rfl, rfl, rfl, rfl, rfl, by simp only [exTwiceTree, SeesMap], by simp only [exTwiceTree, SeesList], by simp only [exTwiceTree, SeesList],
    4, [], rfl, ⟨0, [], [3, 3], rfl, rfl, by simp only [SeesMap], 3, [3], rfl, e, 3, [], rfl, e, rfl⟩, rfl⟩

theorem exTwice_typed : WritableLog exTwiceTree := by
  refine ⟨?_, ?_, ?_, ?_⟩ <;> simp [exTwiceTree, Typed, TypedMap, TypedList, GoodVal, Kind.isCollection]

theorem exTwice_legal : LegalLog exTwiceTree := by
  have b : LegalMap [(py!"b", (.mk .literal py!"b" none (.str py!"x") [] [] : Attr ToyFloat))] :=
    ⟨⟨legalText_plain (by decide), legalText_plain (by decide), by simp [Kind.isCollection, LegalMap]⟩, trivial⟩
  refine ⟨trivial, by simp [exTwiceTree], by simp [exTwiceTree], trivial, trivial, fun t ht => ?_⟩
  simp only [exTwiceTree, List.mem_singleton] at ht
  subst ht
  refine ⟨trivial, fun e he => ?_⟩
  simp only [List.mem_cons, List.not_mem_nil, or_false, or_self] at he
  subst he
  exact b

/-- The event that stands in two places of the log is two events in the copy. -/
example : Sound exTwice ∧ Leads exTwice 5 [.event 0, .trace 0] 3 ∧ Leads exTwice 5 [.event 1, .trace 0] 3 ∧
    ∃ l' h', copyByFile false none (stdFactory ToyFloat fun _ => 0) noExts exTwice 1000 5 = .ok (some l', h') ∧
      Copied exTwice h' (norm noExts (valueBack false) exTwiceTree.content) 5 l' ∧
      ∀ r s, Leads h' l' [.event 0, .trace 0] r → Leads h' l' [.event 1, .trace 0] s → r ≠ s := by
  have hs : Sound exTwice := wellFormed_sound (goodB_sound (by decide +kernel))
  refine ⟨hs, .there (.there .here (.trace (r := 4) rfl rfl)) (.event rfl rfl), .there (.there .here (.trace (r := 4) rfl rfl)) (.event rfl rfl), ?_⟩
  obtain ⟨l', h', h1, h2⟩ := c177_copy toyFloatText noExts false hs exTwice_sees exTwice_typed exTwice_legal (n := 1000) (by decide +kernel) (fun _ => 0) none
  refine ⟨l', h', h1, h2, fun r s hr hs' e => ?_⟩
  subst e
  cases h2.once _ _ _ hr hs'

end Opy
