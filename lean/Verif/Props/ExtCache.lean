import Verif.Model.ExtParse
import Verif.Props.Util
import Verif.Props.ExtMgr
/-
C88-C89: caching extension definitions on disk.
-/
set_option linter.unusedSectionVars false
namespace Opy

/-! ## C88 -/

/-- **C88** (violated): whatever the URI, the environment, the network and the disk - afterwards every
file is as before or empty.  No downloaded byte is ever stored. -/
theorem c88_never_stored (e : Env) (sep : Str) (fetch : Str → Fetch) (d : Disk) (uri path : Str) :
    dget path (cacheExtension e sep fetch d uri).2.files = dget path d.files ∨
    dget path (cacheExtension e sep fetch d uri).2.files = some [] := by
  unfold cacheExtension
  split
  · exact Or.inl rfl
  · split
    · exact Or.inl rfl
    · simp only
      split
      · exact Or.inl rfl
      · exact Or.inl rfl
      · simp only [writeBytes]
        split <;>
        · simp only [dget_dset]
          split
          · exact Or.inr rfl
          · exact Or.inl rfl

/-- The last part of a URI names the cache file. -/
theorem cacheName_ok (pre name : Str) (h1 : name ≠ []) (h2 : '/' ∉ name) :
    cacheName (pre ++ ['/'] ++ name) =
      .ok ('/' :: name ++ (if (py!".xesext").isSuffixOf ('/' :: name) then [] else py!".xesext")) := by
  have hlast : (pre ++ ['/'] ++ name).getLast? = some (name.getLast h1) := by
    rw [List.getLast?_append, List.getLast?_eq_some_getLast h1]
    rfl
  have hne : name.getLast h1 ≠ '/' := fun h => h2 (h ▸ List.getLast_mem h1)
  have hslash : fromLastSlash (pre ++ ['/'] ++ name) = .ok ('/' :: name) := by
    unfold fromLastSlash
    rw [if_pos (by simp)]
    congr 2
    rw [List.reverse_append, List.takeWhile_append_of_pos]
    · simp
    · intro c hc
      simp only [decide_eq_true_eq, ne_eq]
      rintro rfl
      exact h2 (List.mem_reverse.1 hc)
  unfold cacheName
  rw [hlast]
  simp only [if_neg hne, hslash, bind, Except.bind]
  split <;> simp

/-- **C88** (violated): when everything goes well - the folder can be made and the definition is
downloaded - the call raises `TypeError` and leaves an empty file in the cache. -/
theorem c88_refuted {e : Env} (sep : Str) {fetch : Str → Fetch} {d : Disk} {pre name : Str} (h1 : name ≠ []) (h2 : '/' ∉ name)
    {folder : Str} {dirs : List Str} (hf : extensionCacheFolder e d.dirs = .ok (folder, dirs)) {bytes : List Nat}
    (hb : fetch (pre ++ ['/'] ++ name) = .data bytes) (hne : bytes ≠ []) :
    (cacheExtension e sep fetch d (pre ++ ['/'] ++ name)).1 = .error .typeError ∧
    ∃ path, (folder ++ sep).isPrefixOf path ∧ dget path (cacheExtension e sep fetch d (pre ++ ['/'] ++ name)).2.files = some [] := by
  unfold cacheExtension
  rw [cacheName_ok pre name h1 h2]
  simp only [hf, hb, writeBytes, if_neg hne]
  exact ⟨trivial, _, by simp, dget_dset_self _ _ _⟩

/-- **C88** (violated): a URI that ends with a slash raises `TypeError`. -/
theorem c88_slash (e : Env) (sep : Str) (fetch : Str → Fetch) (d : Disk) (uri : Str) :
    cacheExtension e sep fetch d (uri ++ ['/']) = (.error .typeError, d) := by
  unfold cacheExtension cacheName
  simp

/-- **C88** (violated): an empty URI raises `IndexError`, another one without a slash `ValueError`. -/
theorem c88_no_slash (e : Env) (sep : Str) (fetch : Str → Fetch) (d : Disk) {uri : Str} (h : '/' ∉ uri) :
    cacheExtension e sep fetch d uri = (.error (if uri = [] then .indexError else .valueError), d) := by
  unfold cacheExtension cacheName
  cases hl : uri.getLast? with
  | none =>
    rw [List.getLast?_eq_none_iff] at hl
    rw [if_pos hl]
  | some c =>
    have hm := List.mem_of_getLast? hl
    have hc : c ≠ '/' := fun q => h (q ▸ hm)
    have hn : uri ≠ [] := List.ne_nil_of_mem hm
    simp only [if_neg hc, fromLastSlash, if_neg h, if_neg hn, bind, Except.bind]

/-- **C88** (violated): exactly when the call raises nothing: the URI has a name after its last slash, the folder can be made (once, C74),
and nothing is downloaded - because the URI does not answer, or because the answer is empty. -/
theorem c88_exact (e : Env) (sep : Str) (fetch : Str → Fetch) (d : Disk) (uri : Str) :
    (cacheExtension e sep fetch d uri).1 = .ok () ↔
      (∃ pre name, uri = pre ++ ['/'] ++ name ∧ name ≠ [] ∧ '/' ∉ name) ∧ (∃ f, extensionCacheFolder e d.dirs = .ok f) ∧
        (fetch uri = .urlError ∨ fetch uri = .data []) := by
  by_cases hs : '/' ∈ uri
  · obtain ⟨pre, name, hu, hn⟩ : ∃ pre name, uri = pre ++ ['/'] ++ name ∧ '/' ∉ name := by
      have hr := List.mem_reverse.2 hs
      obtain ⟨a, b, q, w⟩ := List.eq_append_cons_of_mem hr
      exact ⟨b.reverse, a.reverse, by rw [← List.reverse_reverse uri, q]; simp, by simpa using w⟩
    subst hu
    by_cases h0 : name = []
    · subst h0
      rw [List.append_nil, c88_slash]
      constructor
      · intro h; cases h
      · rintro ⟨⟨p, n, h1, h2, h3⟩, _⟩
        have := congrArg List.getLast? h1
        simp only [List.getLast?_append, List.getLast?_eq_some_getLast h2] at this
        simp only [List.getLast?_singleton, Option.some_or, Option.some.injEq] at this
        exact absurd (this ▸ List.getLast_mem h2) h3
    · unfold cacheExtension
      rw [cacheName_ok pre name h0 hn]
      cases hf : extensionCacheFolder e d.dirs with
      | error x =>
        constructor
        · intro h; cases h
        · rintro ⟨_, ⟨_, h⟩, _⟩; cases h
      | ok f =>
        simp only
        cases hd : fetch (pre ++ ['/'] ++ name) with
        | urlError => exact ⟨fun _ => ⟨⟨pre, name, rfl, h0, hn⟩, ⟨_, rfl⟩, .inl rfl⟩, fun _ => rfl⟩
        | raises x =>
          constructor
          · intro h; cases h
          · rintro ⟨_, _, h | h⟩ <;> cases h
        | data bytes =>
          simp only [writeBytes]
          by_cases hb : bytes = []
          · subst hb
            exact ⟨fun _ => ⟨⟨pre, name, rfl, h0, hn⟩, ⟨_, rfl⟩, .inr rfl⟩, fun _ => rfl⟩
          · rw [if_neg hb]
            constructor
            · intro h; cases h
            · rintro ⟨_, _, h | h⟩
              · cases h
              · cases h; exact absurd rfl hb
  · rw [c88_no_slash e sep fetch d hs]
    constructor
    · intro h; cases h
    · rintro ⟨⟨p, n, rfl, _⟩, _⟩
      exact absurd (by simp) hs

/-- A Linux system with a USERPROFILE. -/
def cacheEnv : Env := ⟨py!"linux", some py!"/home/u", id⟩

/-- The conditions of `c88_refuted` can be met. -/
example : extensionCacheFolder cacheEnv [] = .ok (py!"/home/u/.OpenXES/ExtensionCache",
    [py!"/home/u/.OpenXES", py!"/home/u/.OpenXES/ExtensionCache"]) := by decide +kernel

example : (cacheExtension cacheEnv py!"/" (fun _ => .data [60, 62]) ⟨[], []⟩ py!"http://x/my.xesext").1 = .error .typeError ∧
    (cacheExtension cacheEnv py!"/" (fun _ => .data [60, 62]) ⟨[], []⟩ py!"http://x/my.xesext").2.files =
      [(py!"/home/u/.OpenXES/ExtensionCache//my.xesext", [])] := by decide +kernel

/-! ## C89 -/

/-- Specification: what lies in a directory lies in a directory that exists. -/
def Disk.WellFormed (d : Disk) (sep : Str) : Prop :=
  ∀ dir name : Str, isSub sep name = false → (dir ++ sep ++ name ∈ dkeys d.files ∨ dir ++ sep ++ name ∈ d.dirs) → dir ∈ d.dirs

theorem entryOf_some {dir sep path name : Str} (h : entryOf dir sep path = some name) :
    path = dir ++ sep ++ name ∧ isSub sep name = false := by
  unfold entryOf at h
  split at h
  · rename_i hp
    simp only at h
    split at h
    · cases h
    · rename_i hs
      cases h
      obtain ⟨t, ht⟩ := List.isPrefixOf_iff_prefix.1 hp
      refine ⟨?_, by simpa using hs⟩
      rw [← ht]
      simp
  · cases h

/-- The folders that one call makes. -/
theorem cacheFolder_fresh {e : Env} {fs dirs : List Str} {folder : Str} (h : extensionCacheFolder e fs = .ok (folder, dirs)) :
    ∃ p, p.length < folder.length ∧ dirs = fs ++ [p] ++ [folder] ∧ folder ∉ fs := by
  simp only [extensionCacheFolder, bind_ok] at h
  obtain ⟨⟨s, fs1⟩, h1, fs2, h2, h⟩ := h
  cases h
  cases hu : e.userProfile with
  | none => rw [(c74_no_profile_refuted e fs hu).1] at h1; cases h1
  | some u =>
    obtain ⟨p, sp, hsp, hn, hm, _⟩ := c74_first_call_partial e fs u hu
    by_cases hp : p ∈ fs
    · rw [hm hp] at h1; cases h1
    · rw [hn hp] at h1
      cases h1
      simp only [makedirs] at h2
      split at h2
      · cases h2
      · rename_i hnot
        cases h2
        refine ⟨p, ?_, rfl, fun hf => hnot (List.mem_append_left _ hf)⟩
        simp only [List.length_append]
        have : 0 < (py!"ExtensionCache").length := by decide
        omega

/-- **C89** (violated): loading the cache never registers an extension - for every environment, disk,
cached definitions and extensions known before; no file is touched either. -/
theorem c89_never_loads {e : Env} {sep : Str} (hsep : sep ≠ []) {d : Disk} (hw : d.WellFormed sep) (isFile old : Str → Bool)
    (parse : Str → Except PyErr (Option Ext)) (m : Mgr) {m' : Mgr} {d' : Disk}
    (h : loadExtensionCache e sep isFile old parse m d = .ok (m', d')) : m' = m ∧ d'.files = d.files := by
  simp only [loadExtensionCache, bind_ok] at h
  obtain ⟨⟨folder, dirs⟩, h1, h⟩ := h
  obtain ⟨p, hp, hd, hf⟩ := cacheFolder_fresh h1
  have hempty : listDir { d with dirs := dirs } sep folder = [] := by
    rw [listDir, List.filterMap_eq_nil_iff]
    intro path hpath
    cases he : entryOf folder sep path with
    | none => rfl
    | some name =>
      exfalso
      obtain ⟨rfl, hs⟩ := entryOf_some he
      simp only at hpath
      rw [hd] at hpath
      have hlen : folder.length < (folder ++ sep ++ name).length := by
        have := List.length_pos_iff.2 hsep
        simp only [List.length_append]
        omega
      rcases List.mem_append.1 hpath with hpath | hpath
      · exact hf (hw folder name hs (Or.inl hpath))
      · rcases List.mem_append.1 hpath with hpath | hpath
        · rcases List.mem_append.1 hpath with hpath | hpath
          · exact hf (hw folder name hs (Or.inr hpath))
          · rw [List.mem_singleton] at hpath
            rw [hpath] at hlen
            omega
        · rw [List.mem_singleton] at hpath
          rw [hpath] at hlen
          omega
  simp only [hempty, List.filter_nil, List.length_nil, if_true] at h
  cases h
  exact ⟨rfl, rfl⟩

/-- **C89** (violated): once there is a support folder - any earlier call that asked for it made one -
loading the cache raises `FileExistsError`. -/
theorem c89_refuted {e : Env} {sep : Str} {fs fs1 : List Str} {q : Str} (h : supportFolder e fs = .ok (q, fs1)) {d : Disk}
    (hs : fs1 ⊆ d.dirs) (isFile old : Str → Bool) (parse : Str → Except PyErr (Option Ext)) (m : Mgr) :
    loadExtensionCache e sep isFile old parse m d = .error .fileExistsError := by
  unfold loadExtensionCache
  rw [(c74_support_folder_refuted e fs fs1 d.dirs q h hs).2]
  rfl

theorem ddel_nodup {k : Str} {α : Type} {d : List (Str × α)} (h : (dkeys d).Nodup) : (dkeys (ddel k d)).Nodup := by
  induction d with
  | nil => exact h
  | cons p d ih =>
    obtain ⟨k', v⟩ := p
    simp only [dkeys, List.map_cons, List.nodup_cons] at h
    simp only [ddel]
    split
    · exact h.2
    · simp only [dkeys, List.map_cons, List.nodup_cons]
      refine ⟨fun hm => h.1 ?_, ih h.2⟩
      have : ∀ e : List (Str × α), k' ∈ (ddel k e).map Prod.fst → k' ∈ e.map Prod.fst := fun e => by
        induction e with
        | nil => exact id
        | cons q e ih' =>
          obtain ⟨k2, v2⟩ := q
          simp only [ddel]
          split
          · exact fun h => List.mem_cons_of_mem _ h
          · simp only [List.map_cons, List.mem_cons]
            exact Or.imp_right ih'
      exact this d hm

/-- The extensions that the files of the folder define: young ones with the right ending that can be parsed. -/
def offered (old : Str → Bool) (parse : Str → Except PyErr (Option Ext)) (folder sep : Str) (files : List Str) : List Ext :=
  files.filterMap fun f =>
    if (py!".xesext").isSuffixOf (pyLower f) = true ∧ old (folder ++ sep ++ f) = false then
      match parse (folder ++ sep ++ f) with
      | .ok x => x
      | .error _ => none
    else none

/-- **C89**, what the loop over the files does when it is reached with the files of the folder (missing: it never is,
see `c89_never_loads` and `c89_refuted`): an extension is found by its URI if it was known before, or else if a young
file defines it, the first such file counting; it is listed once; files past their age are deleted, others are kept. -/
theorem c89_loop_partial (old : Str → Bool) (parse : Str → Except PyErr (Option Ext)) (folder sep : Str) (files : List Str) (m : Mgr) (d : Disk)
    (hd : (dkeys d.files).Nodup) :
    (∀ uri, dget uri (files.foldl (loadOne old parse folder sep) (m, d)).1.map =
      (dget uri m.map).or ((offered old parse folder sep files).find? fun x => x.uri = uri)) ∧
    (∀ x, x ∈ (files.foldl (loadOne old parse folder sep) (m, d)).1.list ↔
      x ∈ m.list ∨ (dget x.uri m.map = none ∧ (offered old parse folder sep files).find? (fun y => y.uri = x.uri) = some x)) ∧
    (m.list.Nodup → (∀ x ∈ m.list, dget x.uri m.map ≠ none) → (files.foldl (loadOne old parse folder sep) (m, d)).1.list.Nodup) ∧
    ∀ path, dget path (files.foldl (loadOne old parse folder sep) (m, d)).2.files =
      if ∃ f ∈ files, (py!".xesext").isSuffixOf (pyLower f) = true ∧ path = folder ++ sep ++ f ∧ old path = true then none
      else dget path d.files := by
  induction files generalizing m d with
  | nil => exact ⟨by simp [offered], by simp [offered], fun h _ => h, by simp⟩
  | cons f files ih =>
    simp only [List.foldl_cons, List.exists_mem_cons_iff]
    by_cases hs : (py!".xesext").isSuffixOf (pyLower f) = true
    · cases ho : old (folder ++ sep ++ f) with
      | true =>
        have ho' : offered old parse folder sep (f :: files) = offered old parse folder sep files := by
          simp only [offered, List.filterMap_cons, ho, Bool.true_eq_false, and_false, if_false]
        have hl : loadOne old parse folder sep (m, d) f = (m, { d with files := ddel (folder ++ sep ++ f) d.files }) := by
          simp only [loadOne, hs, ho, if_true]
        have hd' : (dkeys (ddel (folder ++ sep ++ f) d.files)).Nodup := ddel_nodup hd
        obtain ⟨i1, i2, i3, i4⟩ := ih m { d with files := ddel (folder ++ sep ++ f) d.files } hd'
        rw [hl, ho']
        refine ⟨i1, i2, i3, fun path => ?_⟩
        rw [i4]
        by_cases hp : path = folder ++ sep ++ f
        · rw [if_pos (Or.inl ⟨hs, hp, hp ▸ ho⟩)]
          split
          · rfl
          · rw [hp]; exact dget_ddel_self hd
        · rw [dget_ddel_ne hp]
          simp only [hp, false_and, and_false, false_or]
      | false =>
        have h4 : ∀ path, ((py!".xesext").isSuffixOf (pyLower f) = true ∧ path = folder ++ sep ++ f ∧ old path = true ∨
            ∃ x ∈ files, (py!".xesext").isSuffixOf (pyLower x) = true ∧ path = folder ++ sep ++ x ∧ old path = true) ↔
            ∃ x ∈ files, (py!".xesext").isSuffixOf (pyLower x) = true ∧ path = folder ++ sep ++ x ∧ old path = true := fun path => by
          constructor
          · rintro (⟨-, rfl, h⟩ | h)
            · rw [ho] at h; cases h
            · exact h
          · exact Or.inr
        simp only [h4]
        cases hp : parse (folder ++ sep ++ f) with
        | error e =>
          have h1 : loadOne old parse folder sep (m, d) f = (m, d) := by
            simp only [loadOne, hs, ho, if_true, hp, Bool.false_eq_true, if_false]
          have h2 : offered old parse folder sep (f :: files) = offered old parse folder sep files := by
            simp only [offered, List.filterMap_cons, hs, ho, and_self, if_true, hp]
          rw [h1, h2]; exact ih m d hd
        | ok o =>
          cases o with
          | none =>
            have h1 : loadOne old parse folder sep (m, d) f = (m, d) := by
              simp only [loadOne, hs, ho, if_true, hp, Bool.false_eq_true, if_false]
            have h2 : offered old parse folder sep (f :: files) = offered old parse folder sep files := by
              simp only [offered, List.filterMap_cons, hs, ho, and_self, if_true, hp]
            rw [h1, h2]; exact ih m d hd
          | some x =>
            have h2 : offered old parse folder sep (f :: files) = x :: offered old parse folder sep files := by
              simp only [offered, List.filterMap_cons, hs, ho, and_self, if_true, hp]
            rw [h2]
            cases hx : dget x.uri m.map with
            | some y =>
              have h1 : loadOne old parse folder sep (m, d) f = (m, d) := by
                simp only [loadOne, hs, ho, if_true, hp, Bool.false_eq_true, if_false, hx]
              rw [h1]
              obtain ⟨i1, i2, i3, i4⟩ := ih m d hd
              refine ⟨fun uri => ?_, fun z => ?_, i3, i4⟩
              · rw [i1, List.find?_cons]
                by_cases hu : x.uri = uri
                · subst hu; simp [hx]
                · simp [hu]
              · rw [i2, List.find?_cons]
                by_cases hu : x.uri = z.uri
                · rw [← hu]; simp [hx]
                · simp [hu]
            | none =>
              have h1 : loadOne old parse folder sep (m, d) f = (⟨dset x.uri x m.map, m.list ++ [x]⟩, d) := by
                simp only [loadOne, hs, ho, if_true, hp, Bool.false_eq_true, if_false, hx]
              rw [h1]
              obtain ⟨i1, i2, i3, i4⟩ := ih ⟨dset x.uri x m.map, m.list ++ [x]⟩ d hd
              refine ⟨fun uri => ?_, fun z => ?_, fun hn hk => i3 ?_ ?_, i4⟩
              · rw [i1, List.find?_cons]
                simp only [dget_dset]
                by_cases hu : x.uri = uri
                · subst hu; simp [hx]
                · simp [hu, Ne.symm hu]
              · rw [i2, List.find?_cons]
                simp only [dget_dset, List.mem_append, List.mem_singleton]
                by_cases hu : x.uri = z.uri
                · rw [← hu]; simp [hx, eq_comm]
                · have : z ≠ x := fun e => hu (by rw [e])
                  simp [hu, Ne.symm hu, this]
              · simp only [List.nodup_append, hn, true_and, List.nodup_cons, List.not_mem_nil, not_false_eq_true, List.nodup_nil, and_self,
                  List.mem_singleton, forall_eq]
                rintro y hy rfl
                exact hk _ hy hx
              · intro y hy
                simp only [List.mem_append, List.mem_singleton] at hy
                simp only [dget_dset]
                split
                · simp
                · rcases hy with hy | rfl
                  · exact hk y hy
                  · contradiction
    · have h1 : loadOne old parse folder sep (m, d) f = (m, d) := by simp only [loadOne, if_neg hs]
      have h2 : offered old parse folder sep (f :: files) = offered old parse folder sep files := by
        simp only [offered, List.filterMap_cons, hs, Bool.false_eq_true, false_and, if_false]
      rw [h1, h2]
      simp only [hs, Bool.false_eq_true, false_and, false_or]
      exact ih m d hd

/-- Two files for one URI, one past its age and one of another kind. -/
example : offered (· == py!"/c/old.xesext") (fun _ => .ok (some conceptExt)) py!"/c" py!"/" [py!"a.XESEXT", py!"old.xesext", py!"b.xesext", py!"c.txt"] =
    [conceptExt, conceptExt] := by decide +kernel

/-- Loading on a fresh system: nothing is loaded, the folders are made. -/
example : (loadExtensionCache cacheEnv py!"/" (fun _ => true) (fun _ => false) (fun _ => .ok (some conceptExt)) .empty ⟨[], []⟩).map
    (fun r => (r.1.list.length, r.2.dirs)) = .ok (0, [py!"/home/u/.OpenXES", py!"/home/u/.OpenXES/ExtensionCache"]) := by
  decide +kernel

/-- A disk with a cached definition: loading raises. -/
def cachedDisk : Disk :=
  ⟨[py!"/home/u", py!"/home/u/.OpenXES", py!"/home/u/.OpenXES/ExtensionCache"],
   [(py!"/home/u/.OpenXES/ExtensionCache/my.xesext", [60, 62])]⟩

example : (loadExtensionCache cacheEnv py!"/" (fun _ => true) (fun _ => false) (fun _ => .ok (some conceptExt)) .empty cachedDisk).map
    (fun r => r.1.list.length) = .error .fileExistsError := by decide +kernel

/-- The loop itself would register the extension of a file that is found. -/
example : ((loadOne (fun _ => false) (fun _ => .ok (some conceptExt)) py!"/c" py!"/" (.empty, cachedDisk) py!"my.xesext").1.list) =
    [conceptExt] := by decide +kernel

/-- A disk with a file in the root directory, as `c89_never_loads` assumes. -/
theorem rootDisk_wellFormed : (⟨[[]], [(py!"/x", [1])]⟩ : Disk).WellFormed py!"/" := by
  intro dir name hs h
  simp only [dkeys, List.map_cons, List.map_nil, List.mem_singleton] at h
  rcases h with h | h
  · cases dir with
    | nil => simp
    | cons c dir =>
      cases dir with
      | nil => simp at h
      | cons c' dir => simp at h
  · simp at h

example : (loadExtensionCache cacheEnv py!"/" (fun _ => true) (fun _ => false) (fun _ => .ok (some conceptExt)) .empty
    ⟨[[]], [(py!"/x", [1])]⟩).map (fun r => r.1.list.length) = .ok 0 := by decide +kernel

end Opy
