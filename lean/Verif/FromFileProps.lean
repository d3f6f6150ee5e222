import Verif.FromFile

/-!
C189: a graph builder made from a file.
-/

namespace NGC

theorem findIdx_first_dot (l s : List Char) (h : '.' ∉ l) : (l ++ '.' :: s).findIdx (fun c => decide (c = '.')) = l.length := by
  induction l with
  | nil => simp [List.findIdx_cons]
  | cons c l ih =>
    have hc : c ≠ '.' := fun e => h (by simp [e])
    rw [List.cons_append, List.findIdx_cons, ih (fun hm => h (List.mem_cons_of_mem _ hm))]
    simp [hc]

theorem rfindDot_last (stem r : List Char) (hd : '.' ∉ r) : rfindDot (stem ++ '.' :: r) = some stem.length := by
  unfold rfindDot
  rw [if_pos (by simp)]
  have : (stem ++ '.' :: r).reverse.findIdx (fun c => decide (c = '.')) = r.length := by
    rw [List.reverse_append, List.reverse_cons, List.append_assoc]
    have := findIdx_first_dot r.reverse stem.reverse (by simpa using hd)
    simpa using this
  rw [this]
  simp

theorem last_dot (name : List Char) (h : '.' ∈ name) : ∃ stem r, name = stem ++ '.' :: r ∧ '.' ∉ r := by
  induction name with
  | nil => cases h
  | cons c l ih =>
    by_cases hl : '.' ∈ l
    · obtain ⟨s, r, h1, h2⟩ := ih hl
      exact ⟨c :: s, r, by rw [h1]; rfl, h2⟩
    · rcases List.mem_cons.1 h with rfl | h
      · exact ⟨[], l, rfl, hl⟩
      · exact absurd h hl

theorem nameSuffix_iff (name r : List Char) (hr : r ≠ []) (hd : '.' ∉ r) : nameSuffix name = '.' :: r ↔ ∃ stem, stem ≠ [] ∧ name = stem ++ '.' :: r := by
  have hr' : 0 < r.length := List.length_pos_iff.2 hr
  constructor
  · intro h
    by_cases hm : '.' ∈ name
    · obtain ⟨stem, r', rfl, hd'⟩ := last_dot name hm
      unfold nameSuffix at h
      rw [rfindDot_last stem r' hd'] at h
      simp only [List.length_append, List.length_cons] at h
      split at h
      · rename_i hc
        rw [List.drop_left] at h
        injection h with _ h
        subst h
        exact ⟨stem, List.length_pos_iff.1 hc.1, rfl⟩
      · cases h
    · unfold nameSuffix rfindDot at h
      rw [if_neg hm] at h
      cases h
  · rintro ⟨stem, hs, rfl⟩
    unfold nameSuffix
    rw [rfindDot_last stem r hd]
    have : 0 < stem.length := List.length_pos_iff.2 hs
    simp only [List.length_append, List.length_cons]
    rw [if_pos (by omega)]
    simp

theorem pathSplit_append (a b : List Char) : pathSplit (a ++ '/' :: b) = pathSplit a ++ pathSplit b := by
  induction a with
  | nil => rfl
  | cons c a ih =>
    by_cases hc : c = '/'
    · subst hc
      show pathSplit ('/' :: (a ++ '/' :: b)) = _
      simp only [pathSplit, ih, List.cons_append]
    · have h1 : ∀ l, pathSplit (c :: l) = match pathSplit l with | [] => [[c]] | p :: ps => (c :: p) :: ps := by
        intro l
        conv => lhs; unfold pathSplit
        split
        · rename_i h; cases h
        · rename_i h; injection h with h _; exact absurd h hc
        · rename_i h; injection h with h h'; subst h; subst h'; rfl
      have hne : ∀ l, pathSplit l ≠ [] := by
        intro l
        unfold pathSplit
        split
        · simp
        · simp
        · split <;> simp
      rw [List.cons_append, h1, ih, h1]
      cases ha : pathSplit a with
      | nil => exact absurd ha (hne a)
      | cons p ps => rfl

theorem pathSplit_plain (n : List Char) (h : '/' ∉ n) : pathSplit n = [n] := by
  induction n with
  | nil => rfl
  | cons c n ih =>
    have hc : c ≠ '/' := fun e => h (by simp [e])
    have := ih (fun hm => h (List.mem_cons_of_mem _ hm))
    unfold pathSplit
    split
    · rename_i h; cases h
    · rename_i h; injection h with h _; exact absurd h hc
    · rename_i h; injection h with h h'; subst h; subst h'; rw [this]

/-- **C189, the name of a path.** It is what follows the last slash; slashes and `/.` at the end do not count. -/
theorem C189_name (dir name : List Char) (hn : '/' ∉ name) (h0 : name ≠ []) (h1 : name ≠ ['.']) :
    pureName name = name ∧ pureName (dir ++ '/' :: name) = name ∧ ∀ path, pureName (path ++ "/".toList) = pureName path ∧ pureName (path ++ "/.".toList) = pureName path := by
  have hf : [name].filter (fun c => decide (c ≠ [] ∧ c ≠ ['.'])) = [name] := by simp [h0, h1]
  refine ⟨?_, ?_, fun path => ⟨?_, ?_⟩⟩
  · unfold pureName; rw [pathSplit_plain name hn, hf]; rfl
  · unfold pureName
    rw [pathSplit_append, pathSplit_plain name hn, List.filter_append, hf]
    simp [List.getLastD_eq_getLast?]
  · unfold pureName
    rw [show path ++ "/".toList = path ++ '/' :: [] from rfl, pathSplit_append, List.filter_append]
    simp [pathSplit]
  · unfold pureName
    rw [show path ++ "/.".toList = path ++ '/' :: ['.'] from rfl, pathSplit_append, pathSplit_plain ['.'] (by decide), List.filter_append]
    simp

/-- The last part of the path is a stem followed by `.mid` or `.midi`, in small letters. -/
def Spec.MidiName (name : List Char) : Prop := ∃ stem : List Char, stem ≠ [] ∧ (name = stem ++ ".mid".toList ∨ name = stem ++ ".midi".toList)

theorem midiSuffix_iff (name : List Char) : (nameSuffix name = ".mid".toList ∨ nameSuffix name = ".midi".toList) ↔ Spec.MidiName name := by
  rw [show ".mid".toList = '.' :: ['m', 'i', 'd'] from rfl, show ".midi".toList = '.' :: ['m', 'i', 'd', 'i'] from rfl,
    nameSuffix_iff name ['m', 'i', 'd'] (by simp) (by decide), nameSuffix_iff name ['m', 'i', 'd', 'i'] (by simp) (by decide)]
  constructor
  · rintro (⟨s, h1, h2⟩ | ⟨s, h1, h2⟩)
    · exact ⟨s, h1, Or.inl h2⟩
    · exact ⟨s, h1, Or.inr h2⟩
  · rintro ⟨s, h1, h2 | h2⟩
    · exact Or.inl ⟨s, h1, h2⟩
    · exact Or.inr ⟨s, h1, h2⟩

/-- **C189, what is accepted.** A path that is no file or whose name is not `stem.mid` or `stem.midi` is ValueError, and the file is not read. Otherwise an error of the reader is passed on; a song
that was read makes a builder exactly if the feature size is missing or from 1 to 127, else ValueError. -/
theorem C189_accepts (srt : List Note → List Note) (isFile : List Char → Bool) (read : List Char → Py (Tracks MSeq)) (path : List Char) (size : Option Int) (vel : Bool) :
    (¬ (isFile path = true ∧ Spec.MidiName (pureName path)) → GBuilder.fromFile srt isFile read path size vel = .error .value) ∧
    (isFile path = true → Spec.MidiName (pureName path) →
      (∀ e, read path = .error e → GBuilder.fromFile srt isFile read path size vel = .error e) ∧
      (∀ t, read path = .ok t →
        ((∀ k, size = some k → 1 ≤ k ∧ k ≤ 127) → ∃ gb, GBuilder.fromFile srt isFile read path size vel = .ok gb ∧ gb.midi = some t) ∧
        (¬ (∀ k, size = some k → 1 ≤ k ∧ k ≤ 127) → GBuilder.fromFile srt isFile read path size vel = .error .value))) := by
  unfold GBuilder.fromFile
  constructor
  · intro h
    by_cases h1 : isFile path = true
    · have h2 : ¬ Spec.MidiName (pureName path) := fun h2 => h ⟨h1, h2⟩
      rw [if_neg (by simp [h1]), if_pos (fun h => h2 ((midiSuffix_iff _).1 h))]
    · rw [if_pos (by simpa using h1)]
  · intro h1 h2
    rw [if_neg (by simp [h1]), if_neg (not_not.2 ((midiSuffix_iff _).2 h2))]
    constructor
    · intro e he; rw [he]; rfl
    · intro t ht
      rw [ht]
      have hb : ((Except.ok t : Py (Tracks MSeq)) >>= fun t => GBuilder.new srt (.seqs t) { size := size, perInstr := vel }) = GBuilder.new srt (.seqs t) { size := size, perInstr := vel } := rfl
      rw [hb]
      unfold GBuilder.new midiOf
      simp only [bind, Except.bind]
      rw [if_neg (by norm_num)]
      cases size with
      | none => exact ⟨fun _ => ⟨_, rfl, rfl⟩, fun h => absurd (fun k hk => by cases hk) h⟩
      | some k =>
        by_cases hk : 0 < k ∧ k ≤ 127
        · simp only [if_pos hk]
          exact ⟨fun _ => ⟨_, rfl, rfl⟩, fun h => absurd (fun j hj => by cases hj; omega) h⟩
        · simp only [if_neg hk]
          exact ⟨fun h => absurd (h k rfl) (by omega), fun _ => by simp⟩

/-- **C189, what the arguments do (defect).** `is_include_velocity` becomes the setting "a graph per instrument" and never turns velocities on; and none of the arguments has an effect on what `build`
makes: it makes what a builder without settings makes of the song that was read. -/
theorem C189_arguments (srt : List Note → List Note) (isFile : List Char → Bool) (read : List Char → Py (Tracks MSeq)) (path : List Char) (size : Option Int) (vel : Bool) (gb : GBuilder)
    (h : GBuilder.fromFile srt isFile read path size vel = .ok gb) :
    gb.settings.perInstr = vel ∧ gb.settings.velocity = false ∧ gb.settings.size = size ∧
    ∃ t plain, read path = .ok t ∧ GBuilder.new srt .none {} = .ok plain ∧
      ∀ env o perInstr, (gb.build env none o perInstr).map GBuilder.state = (plain.build env (some t) o perInstr).map GBuilder.state := by
  unfold GBuilder.fromFile at h
  split at h
  · cases h
  split at h
  · cases h
  cases hr : read path with
  | error e => rw [hr] at h; cases h
  | ok t =>
    rw [hr] at h
    have h' : GBuilder.new srt (.seqs t) { size := size, perInstr := vel } = .ok gb := h
    unfold GBuilder.new midiOf at h'
    simp only [bind, Except.bind] at h'
    rw [if_neg (by norm_num)] at h'
    have hg : gb = ⟨{ size := size, perInstr := vel }, some t, ⟨Tables.empty, [], []⟩⟩ := by
      cases size with
      | none => exact (Except.ok.inj h').symm
      | some k =>
        simp only at h'
        split at h'
        · exact (Except.ok.inj h').symm
        · cases h'
    subst hg
    refine ⟨rfl, rfl, rfl, t, ⟨{}, none, ⟨Tables.empty, [], []⟩⟩, rfl, ?_, ?_⟩
    · unfold GBuilder.new midiOf
      simp only [bind, Except.bind]
      rw [if_neg (by norm_num)]
      norm_num
    · intro env o perInstr
      unfold GBuilder.build
      simp only [Option.none_or, Option.some_or, bind, Except.bind]
      cases t.allSeqs with
      | error e => rfl
      | ok tr =>
        simp only
        cases NGC.build env ⟨Tables.empty, [], []⟩ tr o perInstr with
        | error e => rfl
        | ok b => rfl

/-- Names that pass, and some that do not: capital letters, no stem, no file. -/
example : (GBuilder.fromFile id (fun _ => true) (fun _ => .ok Tracks.empty) "a/b.c.mid".toList).isOk = true ∧
    (GBuilder.fromFile id (fun _ => true) (fun _ => .ok Tracks.empty) "a/b.midi/".toList (some 127) true).isOk = true ∧
    (GBuilder.fromFile id (fun _ => true) (fun _ => .ok Tracks.empty) "a/B.MID".toList).isOk = false ∧
    (GBuilder.fromFile id (fun _ => true) (fun _ => .ok Tracks.empty) "a/.mid".toList).isOk = false ∧
    (GBuilder.fromFile id (fun _ => false) (fun _ => .ok Tracks.empty) "a/b.mid".toList).isOk = false := by decide +kernel

end NGC
