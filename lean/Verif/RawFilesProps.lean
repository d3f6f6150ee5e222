import Verif.RawFiles

/-! Properties C150 to C152: raw files of a dataset, and numbers of graphs. -/

namespace NGC

variable {C : Type}

namespace Spec

/-- The name under which a given file is kept: the last part of its path. -/
def keptName (cwd : FPath) (g : Given) : String := pathName (g.resolve cwd)

/-- The place of a given file in the raw directory. -/
def rawPlace (cwd raw : FPath) (g : Given) : FPath := raw ++ [keptName cwd g]

end Spec

open Spec

/-! ### Copying -/

theorem pathName_snoc (p : FPath) (n : String) : pathName (p ++ [n]) = n := by
  unfold pathName; simp

theorem copyFile_other (d : Disk C) (src dst q : FPath) (h : q ≠ dst) : (copyFile d src dst).file q = d.file q := by
  unfold copyFile
  split
  · rfl
  · split
    · unfold Disk.put; simp only []; rw [if_neg h]
    · rfl

theorem copyFile_dir (d : Disk C) (src dst q : FPath) : (copyFile d src dst).dir q = d.dir q := by
  unfold copyFile
  split
  · rfl
  · split <;> rfl

theorem copyFile_self (d : Disk C) (src dst : FPath) (c : C) (h : d.file src = some c) : (copyFile d src dst).file dst = some c := by
  unfold copyFile
  by_cases he : src = dst
  · rw [if_pos he, ← he, h]
  · rw [if_neg he, h]
    unfold Disk.put
    simp

theorem copyFile_some (d : Disk C) (src dst q : FPath) (h : (d.file q).isSome) : ((copyFile d src dst).file q).isSome := by
  unfold copyFile
  split
  · exact h
  · split
    · unfold Disk.put
      simp only []
      split
      · rfl
      · exact h
    · exact h

theorem copyFile_has (d : Disk C) (src dst q : FPath) (h : d.has q = true) : (copyFile d src dst).has q = true := by
  unfold Disk.has at h ⊢
  rw [copyFile_dir]
  rcases Bool.or_eq_true_iff.1 h with h | h
  · rw [copyFile_some d src dst q h]; rfl
  · rw [h, Bool.or_true]

/-! ### The loop -/

theorem download_other (cwd raw : FPath) (gs : List Given) : ∀ (d : Disk C) (q : FPath), (∀ g ∈ gs, q ≠ rawPlace cwd raw g) →
    (downloadList cwd raw d gs).1.file q = d.file q := by
  induction gs with
  | nil => intro d q _; rfl
  | cons g gs ih =>
    intro d q h
    unfold downloadList
    simp only []
    split
    · rfl
    · split
      · simp only []
        rw [ih _ q (fun x hx => h x (List.mem_cons_of_mem _ hx))]
        exact copyFile_other d _ _ q (h g List.mem_cons_self)
      · exact ih d q (fun x hx => h x (List.mem_cons_of_mem _ hx))

theorem download_dir (cwd raw : FPath) (gs : List Given) : ∀ (d : Disk C) (q : FPath), (downloadList cwd raw d gs).1.dir q = d.dir q := by
  induction gs with
  | nil => intro d q; rfl
  | cons g gs ih =>
    intro d q
    unfold downloadList
    simp only []
    split
    · rfl
    · split
      · simp only []
        rw [ih]; exact copyFile_dir _ _ _ _
      · exact ih d q

theorem download_some (cwd raw : FPath) (gs : List Given) : ∀ (d : Disk C) (q : FPath), (d.file q).isSome →
    ((downloadList cwd raw d gs).1.file q).isSome := by
  induction gs with
  | nil => intro d q h; exact h
  | cons g gs ih =>
    intro d q h
    unfold downloadList
    simp only []
    split
    · exact h
    · split
      · exact ih _ q (copyFile_some d _ _ q h)
      · exact ih d q h

theorem download_all_files (cwd raw : FPath) (gs : List Given) : ∀ d : Disk C, (∀ g ∈ gs, (d.file (g.resolve cwd)).isSome) →
    (downloadList cwd raw d gs).2 = (gs.map (fun g => Given.rel [keptName cwd g]), none) := by
  induction gs with
  | nil => intro d _; rfl
  | cons g gs ih =>
    intro d h
    have hg := h g List.mem_cons_self
    have hh : d.has (g.resolve cwd) ≠ false := by unfold Disk.has; rw [hg]; simp
    unfold downloadList
    simp only []
    rw [if_neg hh, if_pos hg]
    have := ih (copyFile d (g.resolve cwd) (raw ++ [pathName (g.resolve cwd)])) (fun x hx => copyFile_some d _ _ _ (h x (List.mem_cons_of_mem _ hx)))
    rw [this]
    rfl

theorem download_content (cwd raw : FPath) (pre post : List Given) (g : Given) : ∀ d : Disk C,
    (∀ x ∈ pre ++ g :: post, (d.file (x.resolve cwd)).isSome) → (∀ x ∈ pre, rawPlace cwd raw x ≠ g.resolve cwd) → (∀ x ∈ post, keptName cwd x ≠ keptName cwd g) →
    (downloadList cwd raw d (pre ++ g :: post)).1.file (rawPlace cwd raw g) = d.file (g.resolve cwd) := by
  induction pre with
  | nil =>
    intro d h _ hpost
    have hg := h g List.mem_cons_self
    obtain ⟨c, hc⟩ := Option.isSome_iff_exists.1 hg
    have hh : d.has (g.resolve cwd) ≠ false := by unfold Disk.has; rw [hg]; simp
    rw [List.nil_append]
    unfold downloadList
    simp only []
    rw [if_neg hh, if_pos hg]
    simp only []
    rw [download_other]
    · rw [hc]; exact copyFile_self d _ _ c hc
    · intro x hx he
      apply hpost x hx
      unfold rawPlace at he
      have := congrArg pathName he
      rw [pathName_snoc, pathName_snoc] at this
      exact this.symm
  | cons y pre ih =>
    intro d h hpre hpost
    rw [List.cons_append] at h ⊢
    have hy := h y List.mem_cons_self
    have hh : d.has (y.resolve cwd) ≠ false := by unfold Disk.has; rw [hy]; simp
    unfold downloadList
    simp only []
    rw [if_neg hh, if_pos hy]
    simp only []
    rw [ih _ (fun x hx => copyFile_some d _ _ _ (h x (List.mem_cons_of_mem _ hx))) (fun x hx => hpre x (List.mem_cons_of_mem _ hx)) hpost]
    exact copyFile_other d _ _ _ (fun he => hpre y List.mem_cons_self he.symm)

/-! ## C150 -/

/-- **C150, which files.** A list that is not empty is used as given; else the files are those in the default directory that are regular files whose name ends
in `.mid` exactly - not `.midi`, not `.MID` -, in the order of the listing. -/
theorem C150_names (files : List Given) (d : Disk C) (loc : FPath) (names : List String) :
    (files ≠ [] → rawFileNames files d loc names endsMid = files) ∧
    (files = [] → rawFileNames files d loc names endsMid =
      (names.filter (fun f => (d.file (loc ++ [f])).isSome && ".mid".toList.isSuffixOf f.toList)).map (fun f => Given.rel [f])) := by
  constructor
  · intro h; unfold rawFileNames; rw [if_pos h]
  · intro h; unfold rawFileNames; rw [if_neg (by simp [h])]; rfl

example : endsMid "song.mid" = true ∧ endsMid "song.midi" = false ∧ endsMid "song.MID" = false := by decide +kernel

/-- **C150, copied.** If all given files are regular files with different names, copying succeeds; the list becomes the list of the names, each raw path holds what the given file of the same position
held, and no other file of the disk has changed. -/
theorem C150_copied (cwd raw : FPath) (d : Disk C) (files : List Given) (hf : ∀ g ∈ files, (d.file (g.resolve cwd)).isSome)
    (hn : (files.map (keptName cwd)).Nodup) :
    (downloadList cwd raw d files).2.2 = none ∧
    (downloadList cwd raw d files).2.1.length = files.length ∧
    (∀ (i : Nat) (g : Given), files[i]? = some g → ∃ g', (downloadList cwd raw d files).2.1[i]? = some g' ∧
      (downloadList cwd raw d files).1.file (g'.rawPath raw) = d.file (g.resolve cwd)) ∧
    ∀ q, (∀ g ∈ files, q ≠ rawPlace cwd raw g) → (downloadList cwd raw d files).1.file q = d.file q := by
  have h2 := download_all_files cwd raw files d hf
  refine ⟨by rw [h2], by rw [h2]; simp, ?_, fun q hq => download_other cwd raw files d q hq⟩
  intro i g hi
  refine ⟨Given.rel [keptName cwd g], by rw [h2]; simp [hi], ?_⟩
  obtain ⟨hlt, hge⟩ := List.getElem?_eq_some_iff.1 hi
  have hsplit : files = files.take i ++ g :: files.drop (i + 1) := by
    rw [← hge, List.getElem_cons_drop hlt, List.take_append_drop]
  have hn' := hn
  rw [hsplit, List.map_append, List.map_cons, List.nodup_append] at hn'
  have hc := download_content cwd raw (files.take i) (files.drop (i + 1)) g d (by rw [← hsplit]; exact hf)
    (by
      intro x hx he
      have hnm : keptName cwd g = keptName cwd x := by
        show pathName (g.resolve cwd) = keptName cwd x
        rw [← he]
        exact pathName_snoc _ _
      exact hn'.2.2 (keptName cwd x) (List.mem_map_of_mem hx) (keptName cwd g) List.mem_cons_self hnm.symm)
    (by
      intro x hx he
      exact (List.nodup_cons.1 hn'.2.1).1 (by rw [← he]; exact List.mem_map_of_mem hx))
  rw [← hsplit] at hc
  exact hc

/-- **C150, files of the same name.** Two given files with the same name get the same raw path; it holds the later one (if no still later file has that name, and its own path is none
of the raw places written before), so that the dataset uses the later file twice and the earlier not at all. -/
theorem C150_same_name (cwd raw : FPath) (d : Disk C) (pre mid post : List Given) (g g' : Given)
    (hf : ∀ x ∈ pre ++ g :: (mid ++ g' :: post), (d.file (x.resolve cwd)).isSome)
    (hsame : keptName cwd g = keptName cwd g') (hpost : ∀ x ∈ post, keptName cwd x ≠ keptName cwd g')
    (hout : ∀ n, g'.resolve cwd ≠ raw ++ [n]) :
    ∃ r r' : Given, (downloadList cwd raw d (pre ++ g :: (mid ++ g' :: post))).2.1[pre.length]? = some r ∧
      (downloadList cwd raw d (pre ++ g :: (mid ++ g' :: post))).2.1[pre.length + mid.length + 1]? = some r' ∧ r.rawPath raw = r'.rawPath raw ∧
      (downloadList cwd raw d (pre ++ g :: (mid ++ g' :: post))).1.file (r.rawPath raw) = d.file (g'.resolve cwd) := by
  have h2 := download_all_files cwd raw _ d hf
  refine ⟨Given.rel [keptName cwd g], Given.rel [keptName cwd g'], ?_, ?_, by rw [hsame], ?_⟩
  · rw [h2]; simp
  · rw [h2]
    simp only [List.getElem?_map]
    rw [List.getElem?_append_right (by omega)]
    have : pre.length + mid.length + 1 - pre.length = mid.length + 1 := by omega
    rw [this, List.getElem?_cons_succ, List.getElem?_append_right (le_refl _), Nat.sub_self]
    rfl
  · have hs : pre ++ g :: (mid ++ g' :: post) = (pre ++ g :: mid) ++ g' :: post := by simp
    have hc := download_content cwd raw (pre ++ g :: mid) post g' d (by rw [← hs]; exact hf) (fun x _ he => hout _ he.symm) hpost
    rw [← hs] at hc
    rw [hsame]
    exact hc

/-- **C150, missing files.** Copying raises nothing if all given paths exist, and RuntimeError if one that is not directly in the raw directory does not. -/
theorem C150_missing (cwd raw : FPath) (d : Disk C) (files : List Given) :
    ((∀ g ∈ files, d.has (g.resolve cwd) = true) → (downloadList cwd raw d files).2.2 = none) ∧
    ((∃ g ∈ files, d.has (g.resolve cwd) = false ∧ ∀ n, g.resolve cwd ≠ raw ++ [n]) → (downloadList cwd raw d files).2.2 = some .runtime) := by
  constructor
  · induction files generalizing d with
    | nil => intro _; rfl
    | cons g gs ih =>
      intro h
      unfold downloadList
      simp only []
      rw [if_neg (by rw [h g List.mem_cons_self]; simp)]
      split
      · exact ih _ (fun x hx => copyFile_has d _ _ _ (h x (List.mem_cons_of_mem _ hx)))
      · exact ih d (fun x hx => h x (List.mem_cons_of_mem _ hx))
  · induction files generalizing d with
    | nil => rintro ⟨g, hg, _⟩; cases hg
    | cons y gs ih =>
      rintro ⟨g, hg, hm, hout⟩
      unfold downloadList
      simp only []
      by_cases hy : d.has (y.resolve cwd) = false
      · rw [if_pos hy]
      · rw [if_neg hy]
        have hg' : g ∈ gs := by
          rcases List.mem_cons.1 hg with rfl | h
          · exact absurd hm hy
          · exact h
        split
        · refine ih _ ⟨g, hg', ?_, hout⟩
          unfold Disk.has at hm ⊢
          rw [copyFile_dir, copyFile_other _ _ _ _ (hout _)]
          exact hm
        · exact ih d ⟨g, hg', hm, hout⟩

/-- **C150, what copying leaves alone.** However copying ends, files that are not at a place `raw_dir/name` of a given file are as before, and no directory changes. -/
theorem C150_untouched (cwd raw : FPath) (d : Disk C) (files : List Given) (q : FPath) :
    (downloadList cwd raw d files).1.dir q = d.dir q ∧ ((∀ g ∈ files, q ≠ raw ++ [pathName (g.resolve cwd)]) → (downloadList cwd raw d files).1.file q = d.file q) :=
  ⟨download_dir cwd raw files d q, fun h => download_other cwd raw files d q h⟩

/-! ## C151 -/

/-- **C151, nothing to do.** If the raw paths of all files given exist, nothing is copied or fetched and the list is unchanged: what stands in the raw directory under a given relative path is used, whatever
the file the path means to the caller holds. -/
theorem C151_ready (cwd raw loc : FPath) (names : List String) (fetch : String → Py C) (d : Disk C) (files : List Given) (hne : files ≠ [])
    (h : ∀ g ∈ files, d.has (g.rawPath raw) = true) :
    (prepare cwd raw loc names fetch d files).disk = d ∧ (prepare cwd raw loc names fetch d files).files = files ∧ (prepare cwd raw loc names fetch d files).err = none := by
  have hl : rawFileNames files d loc names endsMid = files := (C150_names files d loc names).1 hne
  unfold prepare
  simp only []
  rw [hl, if_pos ⟨hne, List.all_eq_true.2 h⟩]
  exact ⟨rfl, rfl, rfl⟩

/-- **C151, absolute paths.** Files given by absolute paths that all exist are never copied: they are used where they are. -/
theorem C151_absolute (cwd raw loc : FPath) (names : List String) (fetch : String → Py C) (d : Disk C) (ps : List FPath) (hne : ps ≠ [])
    (h : ∀ p ∈ ps, d.has p = true) :
    (prepare cwd raw loc names fetch d (ps.map .abs)).disk = d ∧ (prepare cwd raw loc names fetch d (ps.map .abs)).files.map (Given.rawPath raw) = ps ∧
      (prepare cwd raw loc names fetch d (ps.map .abs)).err = none := by
  obtain ⟨h1, h2, h3⟩ := C151_ready cwd raw loc names fetch d (ps.map .abs) (by simpa using hne) (by
    intro g hg
    obtain ⟨p, hp, rfl⟩ := List.mem_map.1 hg
    exact h p hp)
  refine ⟨h1, ?_, h3⟩
  rw [h2, List.map_map]
  have : Given.rawPath raw ∘ Given.abs = id := rfl
  rw [this, List.map_id]

/-- **C151, again with the same list.** The list of the caller is changed by the first construction that copies: after it, constructing again with the same list object and the same root changes nothing;
with another root whose raw directory has no file of the first name, it raises RuntimeError unless the current directory has one. -/
theorem C151_same_list (cwd raw raw2 loc : FPath) (names : List String) (fetch : String → Py C) (d : Disk C) (g : Given) (gs : List Given)
    (hf : ∀ x ∈ g :: gs, (d.file (x.resolve cwd)).isSome) (hmiss : ∃ x ∈ g :: gs, d.has (x.rawPath raw) = false) :
    let one := prepare cwd raw loc names fetch d (g :: gs)
    one.err = none ∧ one.files = (g :: gs).map (fun x => .rel [keptName cwd x]) ∧
    (let two := prepare cwd raw loc names fetch one.disk one.files
     two.err = none ∧ two.files = one.files ∧ two.disk = one.disk) ∧
    (one.disk.has (raw2 ++ [keptName cwd g]) = false → one.disk.has (cwd ++ [keptName cwd g]) = false →
      (prepare cwd raw2 loc names fetch one.disk one.files).err = some .runtime) := by
  have hl : rawFileNames (g :: gs) d loc names endsMid = g :: gs := (C150_names (g :: gs) d loc names).1 (by simp)
  have hone : prepare cwd raw loc names fetch d (g :: gs) =
      ⟨(downloadList cwd raw d (g :: gs)).1, (g :: gs).map (fun x => Given.rel [keptName cwd x]), none⟩ := by
    have h2 := download_all_files cwd raw (g :: gs) d hf
    unfold prepare
    simp only []
    rw [hl, if_neg, if_pos (by simp), h2]
    rintro ⟨_, ha⟩
    obtain ⟨x, hx, hm⟩ := hmiss
    have := List.all_eq_true.1 ha x hx
    rw [hm] at this
    cases this
  intro one
  have h1 : one = _ := hone
  rw [h1]
  refine ⟨rfl, rfl, ?_, ?_⟩
  · have := C151_ready cwd raw loc names fetch (downloadList cwd raw d (g :: gs)).1 ((g :: gs).map (fun x => Given.rel [keptName cwd x])) (by simp) (by
      intro r hr
      obtain ⟨x, hx, rfl⟩ := List.mem_map.1 hr
      show Disk.has _ (rawPlace cwd raw x) = true
      have hsome : ((downloadList cwd raw d (g :: gs)).1.file (rawPlace cwd raw x)).isSome := by
        have key : ∀ (l : List Given) (d : Disk C), (∀ y ∈ l, (d.file (y.resolve cwd)).isSome) → ∀ x ∈ l, ((downloadList cwd raw d l).1.file (rawPlace cwd raw x)).isSome := by
          intro l
          induction l with
          | nil => intro _ _ x hx; cases hx
          | cons y l ih =>
            intro d hd x hx
            have hy := hd y List.mem_cons_self
            have hh : d.has (y.resolve cwd) ≠ false := by unfold Disk.has; rw [hy]; simp
            unfold downloadList
            simp only []
            rw [if_neg hh, if_pos hy]
            simp only []
            rcases List.mem_cons.1 hx with rfl | hx
            · refine download_some cwd raw l _ _ ?_
              obtain ⟨c, hc⟩ := Option.isSome_iff_exists.1 hy
              have := copyFile_self d (x.resolve cwd) (rawPlace cwd raw x) c hc
              exact Option.isSome_iff_exists.2 ⟨c, this⟩
            · exact ih _ (fun z hz => copyFile_some d _ _ _ (hd z (List.mem_cons_of_mem _ hz))) x hx
        exact key (g :: gs) d hf x hx
      unfold Disk.has
      rw [hsome]
      rfl)
    exact ⟨this.2.2, this.2.1, this.1⟩
  · intro hr hc
    have hl2 : rawFileNames ((g :: gs).map (fun x => Given.rel [keptName cwd x])) (downloadList cwd raw d (g :: gs)).1 loc names endsMid =
        (g :: gs).map (fun x => Given.rel [keptName cwd x]) := (C150_names _ _ loc names).1 (by simp)
    unfold prepare
    simp only []
    rw [hl2, if_neg, if_pos (by simp)]
    · rw [List.map_cons]
      unfold downloadList
      simp only []
      rw [if_pos]
      exact hc
    · rintro ⟨_, ha⟩
      have := List.all_eq_true.1 ha (.rel [keptName cwd g]) (by simp)
      rw [show (Given.rel [keptName cwd g]).rawPath raw2 = raw2 ++ [keptName cwd g] from rfl] at this
      simp only [] at hr
      rw [hr] at this
      cases this

/-- **C151, from the server.** Without a list, after success every listed name is in the raw directory; a file that was there before is as before, the others hold what the server sent; no other file changes. -/
theorem C151_web (raw : FPath) (fetch : String → Py C) (d : Disk C) (names : List String)
    (h : (downloadWeb raw fetch d (names.map (fun f => Given.rel [f]))).2 = none) :
    (∀ f ∈ names, (d.has (raw ++ [f]) = true ∧ (downloadWeb raw fetch d (names.map (fun f => Given.rel [f]))).1.file (raw ++ [f]) = d.file (raw ++ [f])) ∨
      (d.has (raw ++ [f]) = false ∧ ∃ c, fetch f = .ok c ∧ (downloadWeb raw fetch d (names.map (fun f => Given.rel [f]))).1.file (raw ++ [f]) = some c)) ∧
    ∀ q, (∀ f ∈ names, q ≠ raw ++ [f]) → (downloadWeb raw fetch d (names.map (fun f => Given.rel [f]))).1.file q = d.file q := by
  have hdir : ∀ (l : List Given) (d : Disk C) (q : FPath), (downloadWeb raw fetch d l).1.dir q = d.dir q := by
    intro l
    induction l with
    | nil => intro d q; rfl
    | cons g l ih =>
      intro d q
      unfold downloadWeb
      simp only []
      split
      · exact ih d q
      · split
        · rw [ih]; rfl
        · rfl
  have hkeep : ∀ (l : List Given) (d : Disk C) (q : FPath), (d.has q = true ∨ ∀ g ∈ l, q ≠ raw ++ [pathName (g.rawPath raw)]) → (downloadWeb raw fetch d l).1.file q = d.file q := by
    intro l
    induction l with
    | nil => intro d q _; rfl
    | cons g l ih =>
      intro d q hq
      have htail : ∀ d' : Disk C, (d.has q = true → d'.has q = true) → (d'.has q = true ∨ ∀ g ∈ l, q ≠ raw ++ [pathName (g.rawPath raw)]) := by
        intro d' hd'
        rcases hq with hq | hq
        · exact Or.inl (hd' hq)
        · exact Or.inr (fun x hx => hq x (List.mem_cons_of_mem _ hx))
      unfold downloadWeb
      simp only []
      by_cases hg : d.has (raw ++ [pathName (g.rawPath raw)]) = true
      · rw [if_pos hg]; exact ih d q (htail d id)
      · rw [if_neg hg]
        have hne : q ≠ raw ++ [pathName (g.rawPath raw)] := by
          rcases hq with hq | hq
          · intro he; rw [he] at hq; exact hg hq
          · exact hq g List.mem_cons_self
        cases hfe : fetch (pathName (g.rawPath raw)) with
        | error e => rfl
        | ok c =>
          simp only []
          have hput : (d.put (raw ++ [pathName (g.rawPath raw)]) c).file q = d.file q := by unfold Disk.put; simp only []; rw [if_neg hne]
          rw [ih _ q (htail _ (by intro hh; unfold Disk.has at hh ⊢; rw [hput]; exact hh)), hput]
  have hname : ∀ f : String, pathName ((Given.rel [f]).rawPath raw) = f := fun f => pathName_snoc raw f
  refine ⟨?_, ?_⟩
  · induction names generalizing d with
    | nil => intro f hf; cases hf
    | cons f0 names ih =>
      intro f hf
      rw [List.map_cons] at h ⊢
      unfold downloadWeb at h ⊢
      simp only [hname] at h ⊢
      by_cases hg : d.has (raw ++ [f0]) = true
      · rw [if_pos hg] at h ⊢
        rcases List.mem_cons.1 hf with rfl | hf
        · exact Or.inl ⟨hg, hkeep _ d _ (Or.inl hg)⟩
        · exact ih d h f hf
      · rw [if_neg hg] at h ⊢
        cases hfe : fetch f0 with
        | error e => rw [hfe] at h; cases h
        | ok c =>
          rw [hfe] at h
          simp only [] at h ⊢
          have hhas : (d.put (raw ++ [f0]) c).has (raw ++ [f0]) = true := by unfold Disk.has Disk.put; simp
          by_cases hff : f = f0
          · subst hff
            refine Or.inr ⟨by simpa using hg, c, hfe, ?_⟩
            rw [hkeep _ _ _ (Or.inl hhas)]
            unfold Disk.put
            simp
          · have hf' : f ∈ names := (List.mem_cons.1 hf).resolve_left hff
            have hne : raw ++ [f] ≠ raw ++ [f0] := by
              intro he
              exact hff (List.cons.inj (List.append_cancel_left he)).1
            have hput : (d.put (raw ++ [f0]) c).file (raw ++ [f]) = d.file (raw ++ [f]) := by unfold Disk.put; simp only []; rw [if_neg hne]
            have hhas2 : (d.put (raw ++ [f0]) c).has (raw ++ [f]) = d.has (raw ++ [f]) := by unfold Disk.has; rw [hput]; rfl
            have := ih _ h f hf'
            rw [hput, hhas2] at this
            exact this
  · intro q hq
    refine hkeep _ d q (Or.inr ?_)
    intro g hg
    obtain ⟨f, hf, rfl⟩ := List.mem_map.1 hg
    rw [hname]
    exact hq f hf

/-- A case: two songs of the same name in two directories, and a third. The dataset uses `b` twice. -/
def exDisk : Disk String where
  file := fun p => if p = ["home", "a", "x.mid"] then some "a" else if p = ["home", "b", "x.mid"] then some "b" else if p = ["home", "y.mid"] then some "y" else none
  dir := fun p => p = ["home"] ∨ p = ["home", "data", "raw"]

example : (downloadList ["home"] ["home", "data", "raw"] exDisk [.rel ["a", "x.mid"], .rel ["b", "x.mid"], .rel ["y.mid"]]).2 =
    ([.rel ["x.mid"], .rel ["x.mid"], .rel ["y.mid"]], none) ∧
    (downloadList ["home"] ["home", "data", "raw"] exDisk [.rel ["a", "x.mid"], .rel ["b", "x.mid"], .rel ["y.mid"]]).1.file ["home", "data", "raw", "x.mid"] = some "b" := by
  decide +kernel

example : (∀ g ∈ [Given.rel ["a", "x.mid"], .rel ["y.mid"]], (exDisk.file (g.resolve ["home"])).isSome) ∧
    ([Given.rel ["a", "x.mid"], .rel ["y.mid"]].map (keptName ["home"])).Nodup := by decide +kernel

/-- A second dataset from the list object the first has changed: RuntimeError. -/
example : let one := prepare ["home"] ["home", "data", "raw"] [] [] (fun _ => .error .runtime) exDisk [.rel ["a", "x.mid"]]
    one.err = none ∧ (prepare ["home"] ["home", "data2", "raw"] [] [] (fun _ => .error .runtime) one.disk one.files).err = some .runtime := by decide +kernel

/-! ## C152 -/

namespace Spec

/-- The argument of the last access to the dataset itself, not to a subset; 0 before any. -/
def lastUsed : List (Nat × DIndex) → DIndex → DIndex
  | [], i => i
  | a :: as, i => lastUsed as (if a.1 = 0 then a.2 else i)

end Spec

theorem get_first (w : DWorld) (s : DSet) (hw : w[0]? = some s) (obj : Nat) (idx : DIndex) :
    (w.get obj idx).1[0]? = some { s with cur := if obj = 0 then idx else s.cur } := by
  have hset : ∀ t, w[obj]? = some t → (w.set obj { t with cur := idx })[0]? = some { s with cur := if obj = 0 then idx else s.cur } := by
    intro t ht
    by_cases h0 : obj = 0
    · subst h0
      rw [hw] at ht
      cases ht
      rw [List.getElem?_set_self (List.getElem?_eq_some_iff.1 hw).1, if_pos rfl]
    · rw [List.getElem?_set_ne h0, hw, if_neg h0]
  unfold DWorld.get
  cases ht : w[obj]? with
  | none =>
    have h0 : obj ≠ 0 := by intro h; rw [h, hw] at ht; cases ht
    simp only []
    rw [hw, if_neg h0]
  | some t =>
    have := hset t ht
    have hlt : 0 < (w.set obj { t with cur := idx }).length := by
      rw [List.length_set]; exact (List.getElem?_eq_some_iff.1 hw).1
    simp only []
    cases idx with
    | int i =>
      simp only []
      cases pyAt t.shown i with
      | error e => exact this
      | ok g =>
        simp only []
        rw [this]
        simp only []
        split
        · exact this
        · exact this
    | slice f => simp only []; rw [List.getElem?_append_left hlt]; exact this
    | list l =>
      simp only []
      cases l.mapM (pyAt t.shown) with
      | error e => exact this
      | ok l' => simp only []; rw [List.getElem?_append_left hlt]; exact this

theorem run_first (as : List (Nat × DIndex)) : ∀ (w : DWorld) (s : DSet), w[0]? = some s → (w.run as)[0]? = some { s with cur := lastUsed as s.cur } := by
  induction as with
  | nil => intro w s h; exact h
  | cons a as ih =>
    intro w s h
    unfold DWorld.run lastUsed
    exact ih _ _ (get_first w s h a.1 a.2)

/-- The number of the graph at position `i` of a list, as Python counts. -/
theorem pyAt_range (n : Nat) (i : Int) : pyAt (List.range n) i =
    if 0 ≤ i ∧ i < n then .ok i.toNat else if i < 0 ∧ -(n : Int) ≤ i then .ok ((n : Int) + i).toNat else .error .index := by
  unfold pyAt
  rw [List.length_range]
  by_cases h0 : 0 ≤ i
  · rw [if_pos h0]
    by_cases h1 : i < n
    · rw [if_pos ⟨h0, h1⟩, List.getElem?_range (by omega)]
    · rw [if_neg (by omega), if_neg (by omega), List.getElem?_eq_none (by rw [List.length_range]; omega)]
  · have c0 : ¬ (0 ≤ i ∧ i < n) := fun h => h0 h.1
    rw [if_neg h0, if_neg c0]
    by_cases h1 : -(n : Int) ≤ i
    · have c1 : -i ≤ (n : Int) := by omega
      rw [if_pos c1, if_pos ⟨by omega, h1⟩, List.getElem?_range (by omega)]
    · have c1 : ¬ -i ≤ (n : Int) := by omega
      have c2 : ¬ (i < 0 ∧ -(n : Int) ≤ i) := fun h => h1 h.2
      rw [if_neg c1, if_neg c2]

/-- **C152, graph numbers.** With `GraphIDTransform(dataset)`: after every history of accesses to a dataset of n graphs and its subsets, `dataset[i]` for 0 <= i < n is graph i with `graph_id` i, for -n <= i < 0 it is graph n+i with
`graph_id` i - negative -, else IndexError. -/
theorem C152_own (n : Nat) (as : List (Nat × DIndex)) (i : Int) :
    (((DWorld.new n).run as).get 0 (.int i)).2 =
      if 0 ≤ i ∧ i < n then .ok (.graph i.toNat (.one i)) else if i < 0 ∧ -(n : Int) ≤ i then .ok (.graph ((n : Int) + i).toNat (.one i)) else .error .index := by
  have h0 := run_first as (DWorld.new n) ⟨List.range n, .int 0⟩ rfl
  have h1 := get_first _ _ h0 0 (.int i)
  generalize (DWorld.new n).run as = w at h0 h1
  unfold DWorld.get at h1 ⊢
  rw [h0] at h1 ⊢
  simp only [] at h1 ⊢
  rw [pyAt_range] at h1 ⊢
  have hset : (w.set 0 { shown := List.range n, cur := DIndex.int i })[0]? = some { shown := List.range n, cur := DIndex.int i } :=
    List.getElem?_set_self (List.getElem?_eq_some_iff.1 h0).1
  by_cases c1 : 0 ≤ i ∧ i < n
  · simp only [if_pos c1, hset]
    rfl
  · by_cases c2 : i < 0 ∧ -(n : Int) ≤ i
    · simp only [if_neg c1, if_pos c2, hset]
      rfl
    · simp only [if_neg c1, if_neg c2]

/-- **C152, numbers of a subset.** A graph taken from a subset carries the index last used on the dataset itself, whichever graph it is: the number or the list of numbers last used there; after a slice of the dataset, every access to a subset raises
until the dataset itself is accessed by number again. -/
theorem C152_subset (n : Nat) (as : List (Nat × DIndex)) (obj : Nat) (s : DSet) (i : Int) (g : Nat) (ho : obj ≠ 0)
    (hs : ((DWorld.new n).run as)[obj]? = some s) (hg : pyAt s.shown i = .ok g) :
    (((DWorld.new n).run as).get obj (.int i)).2 =
      match lastUsed as (.int 0) with
      | .int k => .ok (.graph g (.one k))
      | .list l => .ok (.graph g (.many l))
      | .slice _ => .error .type := by
  have h0 := run_first as (DWorld.new n) ⟨List.range n, .int 0⟩ rfl
  have h1 := get_first _ _ h0 obj (.int i)
  have hset : ((((DWorld.new n).run as).set obj { s with cur := DIndex.int i }))[0]? = some { shown := List.range n, cur := lastUsed as (.int 0) } := by
    rw [List.getElem?_set_ne ho, h0]
  generalize (DWorld.new n).run as = w at h0 h1 hs hset
  unfold DWorld.get
  rw [hs]
  simp only [hg, hset]
  unfold graphIdOf
  simp only []
  cases lastUsed as (.int 0) <;> rfl

/-- **C152, what a subset shows.** `obj[slice]` is a new object that shows the slice of what `obj` shows, `obj[list]` the positions listed, in that order; what other objects show does not change. -/
theorem C152_shows (w : DWorld) (obj : Nat) (s : DSet) (hs : w[obj]? = some s) :
    (∀ f, (w.get obj (.slice f)).2 = .ok (.subset w.length) ∧ ((w.get obj (.slice f)).1[w.length]?).map DSet.shown = some (f s.shown)) ∧
    (∀ l l', l.mapM (pyAt s.shown) = .ok l' → (w.get obj (.list l)).2 = .ok (.subset w.length) ∧ ((w.get obj (.list l)).1[w.length]?).map DSet.shown = some l') ∧
    ∀ idx k, k < w.length → ((w.get obj idx).1[k]?).map DSet.shown = (w[k]?).map DSet.shown := by
  refine ⟨?_, ?_, ?_⟩
  · intro f
    unfold DWorld.get
    rw [hs]
    simp
  · intro l l' hl
    unfold DWorld.get
    rw [hs]
    simp [hl]
  · intro idx k hk
    have hset : ∀ c, ((w.set obj { s with cur := c })[k]?).map DSet.shown = (w[k]?).map DSet.shown := by
      intro c
      by_cases he : obj = k
      · subst he
        rw [List.getElem?_set_self hk, hs]
        rfl
      · rw [List.getElem?_set_ne he]
    have happ : ∀ c x, ((w.set obj { s with cur := c } ++ [x])[k]?).map DSet.shown = (w[k]?).map DSet.shown := by
      intro c x
      rw [List.getElem?_append_left (by rw [List.length_set]; exact hk)]
      exact hset c
    unfold DWorld.get
    rw [hs]
    simp only []
    cases idx with
    | int i =>
      simp only []
      cases pyAt s.shown i with
      | error e => exact hset _
      | ok g =>
        simp only []
        split
        · exact hset _
        · split <;> exact hset _
    | slice f => exact happ _ _
    | list l =>
      simp only []
      cases l.mapM (pyAt s.shown) with
      | error e => exact hset _
      | ok l' => exact happ _ _

/-- A history: graph 2, then the subset of positions 3 and 4 by a list, then its first graph: graph 3 carries the whole list. -/
example : let w := ((DWorld.new 5).run [(0, .int 2), (0, .list [3, 4])])
    (w.get 1 (.int 0)).2 = .ok (.graph 3 (.many [3, 4])) ∧ ((w.get 0 (.int 2)).1.get 1 (.int 0)).2 = .ok (.graph 3 (.one 2)) := by
  decide +kernel

/-- A slice: its graphs cannot be taken. -/
example : (((DWorld.new 5).run [(0, .slice (List.drop 3))]).get 1 (.int 0)).2 = .error .type := by decide +kernel

end NGC
