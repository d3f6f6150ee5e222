import Verif.WriterProps4

/-! Property theorem C130, continued: the signatures of a song that is written whole. -/

namespace NGC

open Spec (seconds TempoMap line Strict2 Monotone2 scaleAt Tame Close TempoList NearestTick inForce)

theorem mapM_eq_map {α β : Type} (f : α → Py β) (g : α → β) (hf : ∀ x y, f x = .ok y → y = g x) : ∀ (l : List α) (r : List β), l.mapM f = .ok r → r = l.map g := by
  intro l
  induction l with
  | nil => intro r h; cases h; rfl
  | cons a l ih =>
    intro r h
    rw [List.mapM_cons] at h
    simp only [bind, Except.bind, pure, Except.pure] at h
    cases ha : f a with
    | error e => rw [ha] at h; cases h
    | ok b =>
      rw [ha] at h
      simp only at h
      cases hl : l.mapM f with
      | error e => rw [hl] at h; cases h
      | ok bs =>
        rw [hl] at h
        cases h
        rw [List.map_cons, hf a b ha, ih bs hl]

/-- Writing up to `e` does not change what is in force before `e`. -/
theorem inForce_written {A E : Type} (tm : A → ℚ) (time : E → ℚ) (f : A → E) (hf : ∀ x, time (f x) = tm x) (l : List A) (e t : ℚ) (ht : t < e) :
    inForce time (((sortByKey tm l).filter (fun x => !decide (tm x > e))).map f) t = (inForce tm l t).map f := by
  have h1 : (fun a => time (f a)) = tm := funext hf
  unfold Spec.inForce
  rw [← sortByKey_map f time, h1, sortByKey_of_sorted tm _ ((sortByKey_sorted tm l).filter _), List.filter_map, List.getLast?_map, List.filter_filter]
  congr 2
  apply List.filter_congr
  intro x _
  simp only [Function.comp, hf]
  by_cases hx : tm x ≤ t
  · simp [hx, not_lt.2 (le_trans hx ht.le)]
  · simp [hx]

theorem sortByKey_of_perm {α : Type} (key : α → ℚ) {l l' : List α} (h : l.Perm l') (hn : (l.map key).Nodup) : sortByKey key l = sortByKey key l' := by
  apply List.Perm.eq_of_pairwise (le := fun a b => key a < key b)
  · intro a b _ _ h1 h2; exact absurd h1 (not_lt.2 h2.le)
  · exact sortByKey_strict key l hn
  · exact sortByKey_strict key l' (((h.map key).nodup_iff).1 hn)
  · exact ((sortByKey_perm key l).trans h).trans (sortByKey_perm key l').symm

/-! ### The first downbeat -/

theorem closeIdx_zero (l : List ℚ) (d : Nat) : closeIdx (0 :: l) 0 d = 0 := by
  simp [closeIdx, List.findIdx?_cons, npClose]

theorem everyNth_head (n : Nat) (x : ℚ) (l : List ℚ) : (everyNth n (x :: l)).head? = some x := by
  simp [everyNth, List.zipIdx_cons]

theorem strided_head (l : List ℚ) (b : Option Nat) (hb : ∀ b', b = some b' → 0 < b') (step : Int) (r : List ℚ) (h : strided (0 :: l) 0 b step = .ok r) :
    r.head? = some 0 := by
  unfold strided at h
  split_ifs at h
  cases b with
  | none => cases h; exact everyNth_head _ _ _
  | some b' =>
    have := hb b' rfl
    cases h
    obtain ⟨m, rfl⟩ : ∃ m, b' = m + 1 := ⟨b' - 1, by omega⟩
    exact everyNth_head _ _ _

theorem downGo_head (l : List ℚ) : ∀ (ts : List (Int × Int × ℚ)) (x : Int × Int × ℚ) (r : List ℚ), closeIdx (0 :: l) x.2.2 0 = 0 →
    downGo (0 :: l) (x :: ts) 0 = .ok r → r.head? = some 0 := by
  intro ts
  induction ts with
  | nil =>
    intro x r hx h
    unfold downGo at h
    rw [hx] at h
    exact strided_head l none (by simp) _ _ h
  | cons y ts ih =>
    intro x r hx h
    unfold downGo at h
    simp only [hx, bind, Except.bind] at h
    cases h1 : strided (0 :: l) 0 (some (closeIdx (0 :: l) y.2.2 0)) (barBeats x.1) with
    | error e => rw [h1] at h; cases h
    | ok r1 =>
      rw [h1] at h
      simp only at h
      cases h2 : downGo (0 :: l) (y :: ts) (closeIdx (0 :: l) y.2.2 0) with
      | error e => rw [h2] at h; cases h
      | ok r2 =>
        rw [h2] at h
        cases h
        by_cases hb : closeIdx (0 :: l) y.2.2 0 = 0
        · rw [hb] at h1 h2
          have : r1 = [] := by
            unfold strided at h1
            split_ifs at h1
            cases h1; rfl
          rw [this, List.nil_append]
          exact ih y r2 hb h2
        · have := strided_head l _ (by rintro b' hb'; cases hb'; omega) _ _ h1
          cases r1 with
          | nil => cases this
          | cons a r1 => exact this

theorem first_downbeat (fuel : Nat) (pm : PM) (e : ℚ) (hend : pm.endTime = .ok e) (he : 0 < e) (h0 : ∀ x ∈ pm.timeSigs, 0 ≤ x.2.2) (downs : List ℚ)
    (h : pm.downbeats fuel 0 = .ok (some downs)) : downs.head? = some 0 := by
  unfold PM.downbeats at h
  cases hb : pm.beats fuel 0 with
  | error e => rw [hb] at h; simp [bind, Except.bind] at h
  | ok o =>
    rw [hb] at h
    cases o with
    | none => simp [bind, Except.bind] at h
    | some bs =>
      simp only [bind, Except.bind] at h
      cases hd : NGC.downbeats bs (sortByKey (fun x => x.2.2) pm.timeSigs) 0 with
      | error e => rw [hd] at h; cases h
      | ok l =>
        rw [hd] at h
        cases h
        -- the first beat
        have hhead : ∃ tl, bs = 0 :: tl := by
          unfold PM.beats at hb
          cases htc : pm.clock.tempoChanges with
          | error e => rw [htc] at hb; simp [bind, Except.bind] at hb
          | ok tc =>
            rw [htc] at hb
            simp only [bind, Except.bind] at hb
            cases hi : beatInit tc.1 (sortByKey (fun x => x.2.2) pm.timeSigs) 0 with
            | error e => rw [hi] at hb; simp at hb
            | ok st =>
              rw [hi, hend] at hb
              simp only at hb
              have hst : st.beat = 0 := by
                unfold beatInit at hi
                cases htc1 : tc.1 with
                | nil => rw [htc1] at hi; cases hi
                | cons a rest =>
                  rw [htc1] at hi
                  dsimp only at hi
                  cases hsr : sortByKey (fun x : Int × Int × ℚ => x.2.2) pm.timeSigs with
                  | nil => rw [hsr] at hi; cases hi; rfl
                  | cons y ys => rw [hsr] at hi; cases hi; rfl
              cases fuel with
              | zero =>
                unfold beatsGo at hb
                rw [hst, if_pos he] at hb
                cases hb
              | succ fuel =>
                unfold beatsGo at hb
                rw [hst, if_pos he] at hb
                simp only [bind, Except.bind] at hb
                cases hs : beatStep st with
                | error e => rw [hs] at hb; cases hb
                | ok st' =>
                  rw [hs] at hb
                  simp only at hb
                  cases hg : beatsGo e fuel st' with
                  | error e => rw [hg] at hb; cases hb
                  | ok r =>
                    rw [hg] at hb
                    simp only [Except.ok.injEq] at hb
                    cases r with
                    | none => cases hb
                    | some r => simp only [Option.map_some, Option.some.injEq] at hb; exact ⟨r, hb.symm⟩
        obtain ⟨tl, rfl⟩ := hhead
        have key : ∀ ts r, (∃ x rest, ts = x :: rest ∧ x.2.2 = 0) → downGo (0 :: tl) ts 0 = .ok r →
            (r.filter (fun d => decide ((0 : ℚ) ≤ d))).head? = some 0 := by
          rintro ts r ⟨x, rest, rfl, hx⟩ hr
          have := downGo_head tl rest x r (by rw [hx]; exact closeIdx_zero _ _) hr
          cases r with
          | nil => cases this
          | cons a r =>
            simp only [List.head?_cons, Option.some.injEq] at this
            subst this
            simp
        unfold NGC.downbeats at hd
        cases hsr : sortByKey (fun x : Int × Int × ℚ => x.2.2) pm.timeSigs with
        | nil =>
          rw [hsr] at hd
          simp only [bind, Except.bind] at hd
          cases hr : downGo (0 :: tl) [(4, 4, 0)] 0 with
          | error e => rw [hr] at hd; cases hd
          | ok r =>
            rw [hr] at hd
            cases hd
            exact key _ _ ⟨_, _, rfl, rfl⟩ hr
        | cons y ys =>
          rw [hsr] at hd
          simp only [bind, Except.bind] at hd
          have hy : 0 ≤ y.2.2 := h0 y ((sortByKey_perm _ _).mem_iff.1 (by rw [hsr]; simp))
          by_cases hlt : 0 < y.2.2
          · rw [if_pos hlt] at hd
            cases hr : downGo (0 :: tl) ((4, 4, 0) :: y :: ys) 0 with
            | error e => rw [hr] at hd; cases hd
            | ok r =>
              rw [hr] at hd
              cases hd
              exact key _ _ ⟨_, _, rfl, rfl⟩ hr
          · rw [if_neg hlt] at hd
            cases hr : downGo (0 :: tl) (y :: ys) 0 with
            | error e => rw [hr] at hd; cases hd
            | ok r =>
              rw [hr] at hd
              cases hd
              exact key _ _ ⟨y, ys, rfl, le_antisymm (not_lt.1 hlt) hy⟩ hr

/-- **C130, the signatures.** When a song with a constant tempo is written whole (as in C128_exact), the object has, at every moment from 0 to the end of the
last note, the key the song has then and, if no two time signatures of the song are at the same time, the metre
the song has then; 4/4 if it has none. -/
theorem C130_signatures (srt : List TimeSig → List TimeSig) (hsrt : ∀ l, (srt l).Perm l) (srt' : List (ℚ × ℚ) → List (ℚ × ℚ))
    (hs : ∀ l, (srt' l).Perm l ∧ (srt' l).Pairwise (fun c d => d.2 ≤ c.2)) (fuel : Nat) (s : Song)
    (t0 b : ℚ) (fn : String) (ex : Bool) (fs : Option ℚ) (hfs : fs.getD 0 = 0) (ow : Overwrite) (pm' : PM)
    (h : s.write srt srt' fuel t0 fn ex fs (some b) ow = .ok (some pm')) (ts : List MSeq) (hr : Spec.Registered s ts)
    (hall : s.tracks.allSeqs = .ok ts) (hv : ∀ t ∈ ts, ∀ n ∈ t.notes, 0 ≤ n.start ∧ n.start < n.stop)
    (hq : ∀ q ∈ s.tempos, q.time = 0) (hb : ∀ t ∈ ts, ∀ n ∈ t.notes, n.stop ≤ b) (t : ℚ) (ht : 0 ≤ t) (hlast : ∃ u ∈ ts, ∃ n ∈ u.notes, t < n.stop) :
    (inForce (fun x => x.2) pm'.keySigs t).map (fun x => ((x.1 : Nat) : Int)) = (inForce KeySig.time s.keys t).map keyNumber ∧
    ((s.times.map TimeSig.time).Nodup →
      (inForce (fun x => x.2.2) pm'.timeSigs t).map (fun x => (x.1, x.2.1)) =
        some (((inForce TimeSig.time s.times t).map (fun x => (x.numer, x.denom))).getD (4, 4))) := by
  obtain ⟨pm, e, evs, c0, hB, hend, hadj, he, hle, _, hins⟩ := whole_song hs hfs h hr hall hv hq hb
  obtain ⟨u, hu, n, hn, htn⟩ := hlast
  have hte : t < e := lt_of_lt_of_le htn (hle u hu n hn)
  have hstrict : Strict2 [(0, 0), (e, e)] := by simp [Strict2, he]
  have hid : ∀ x, 0 ≤ x → x ≤ e → interp [(0, 0), (e, e)] x = x := by
    intro x h1 h2
    rw [points_interp _ _ _ _ he he.le h1 h2]
    simp only [line, sub_zero, zero_add, mul_div_assoc, div_self he.ne', mul_one]
  have hkeys : pm.keySigs = (sliceKeySigs e s.keys).map (fun x => ((keyNumber x).toNat, x.time)) := by
    refine mapM_eq_map writeKeySig _ ?_ _ _ hB.keys
    intro x y hxy
    unfold writeKeySig at hxy
    split_ifs at hxy
    cases hxy; rfl
  have htimes : pm.timeSigs = (sliceTimeSigs srt e s.times).map (fun x => (x.numer, x.denom, x.time)) := by
    refine mapM_eq_map writeTimeSig _ ?_ _ _ hB.times
    intro x y hxy
    unfold writeTimeSig at hxy
    split_ifs at hxy
    cases hxy; rfl
  have ht0 : ∀ x ∈ pm.timeSigs, 0 ≤ x.2.2 := by
    intro x hx
    obtain ⟨y, hy, hyx⟩ := mapM_mem _ _ _ hB.times x hx
    unfold writeTimeSig at hyx
    split_ifs at hyx with hc
    cases hyx
    exact hc.2.2
  have hk0 : ∀ x ∈ sliceKeySigs e s.keys, 0 ≤ keyNumber x := by
    intro x hx
    by_contra hneg
    have : ∀ (l : List KeySig) (r : List (Nat × ℚ)), l.mapM writeKeySig = .ok r → ∀ x ∈ l, 0 ≤ keyNumber x := by
      intro l
      induction l with
      | nil => intro r _ x hx; cases hx
      | cons a l ih =>
        intro r hr x hx
        rw [List.mapM_cons] at hr
        simp only [bind, Except.bind, pure, Except.pure] at hr
        cases ha : writeKeySig a with
        | error e => rw [ha] at hr; cases hr
        | ok v =>
          rw [ha] at hr
          simp only at hr
          cases hl : l.mapM writeKeySig with
          | error e => rw [hl] at hr; cases hr
          | ok vs =>
            rcases List.mem_cons.1 hx with rfl | hx
            · unfold writeKeySig at ha
              split_ifs at ha with hc
              exact hc.1
            · exact ih vs hl x hx
    exact hneg (this _ _ hB.keys x hx)
  obtain ⟨downs, a, tc, c1, c2, hd, ha, _, _, hpm⟩ := adjustTimes_some hadj
  have hmap : timeMap [(0, 0), (e, e)] = [(0, 0), (e, e)] := by
    rw [points_timeMap e 0 e he, max_eq_right he.le]
  constructor
  · have hkf := C121_in_force (fun x : Nat × ℚ => x.2) (fun x t => (x.1, t)) (fun _ _ => rfl) [(0, 0), (e, e)] hstrict (0, 0) (e, e) rfl rfl pm.keySigs t ht hte
    rw [hid t ht hte.le] at hkf
    have hpk : pm'.keySigs = adjEvents (fun x : Nat × ℚ => x.2) (fun x t => (x.1, t)) (timeMap [(0, 0), (e, e)]) pm.keySigs := by rw [hpm]
    rw [hpk, hkf, hkeys]
    have := inForce_written KeySig.time (fun x : Nat × ℚ => x.2) (fun x => ((keyNumber x).toNat, x.time)) (fun _ => rfl) s.keys e t hte
    unfold sliceKeySigs
    rw [this, Option.map_map, Option.map_map]
    cases hf : inForce KeySig.time s.keys t with
    | none => rfl
    | some x =>
      simp only [Option.map_some, Function.comp, Option.some.injEq]
      apply Int.toNat_of_nonneg
      apply hk0
      unfold Spec.inForce at hf
      have hm := List.mem_of_getLast? hf
      obtain ⟨h1, h2⟩ := List.mem_filter.1 hm
      refine List.mem_filter.2 ⟨h1, ?_⟩
      have := of_decide_eq_true h2
      simp [not_lt.2 (le_trans this hte.le)]
  · intro hnd
    have hfd := first_downbeat fuel pm e hend he ht0 downs hd
    have hfd' : (downs.filter (fun x => decide ((0 : ℚ) ≤ x))).head? = some 0 := by
      cases downs with
      | nil => cases hfd
      | cons a l =>
        simp only [List.head?_cons, Option.some.injEq] at hfd
        subst hfd
        simp
    obtain ⟨_, _, hm⟩ := C126_metre fuel pm pm' [(0, 0), (e, e)] hstrict (0, 0) (e, e) rfl rfl downs hd 0 hfd' hadj
    have := hm t ht hte
    rw [hid t ht hte.le] at this
    rw [this]
    have hif : inForce (fun x : Int × Int × ℚ => x.2.2) pm.timeSigs t = (inForce TimeSig.time s.times t).map (fun x => (x.numer, x.denom, x.time)) := by
      have h1 := inForce_written TimeSig.time (fun x : Int × Int × ℚ => x.2.2) (fun x => (x.numer, x.denom, x.time)) (fun _ => rfl) s.times e t hte
      rw [← h1, htimes]
      unfold Spec.inForce
      congr 2
      apply sortByKey_of_perm
      · refine List.Perm.map _ (List.Perm.filter _ ?_)
        exact (hsrt s.times).trans (sortByKey_perm _ _).symm
      · rw [List.map_map]
        have hsub : ((sliceTimeSigs srt e s.times).map TimeSig.time).Sublist ((srt s.times).map TimeSig.time) := (List.filter_sublist).map _
        exact hsub.nodup ((((hsrt s.times).map TimeSig.time).nodup_iff).2 hnd)
    rw [hif, Option.map_map]
    rfl

end NGC
