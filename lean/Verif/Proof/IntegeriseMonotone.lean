import Verif.Proof.IntegeriseRound

/-
Two runs of 1-d integerisation (for C97).
-/

namespace HL
namespace Integerise
variable {fp : FP}

theorem dy (h : fp.Good) (z : ℤ) {q : ℚ} (hz : |z| ≤ 1000) (e : q = (z : ℚ) / 2 ^ 4) : fp.rnd q = .fin q := by
  rw [e]
  exact h.dyadic z 4 (hz.trans (by norm_num)) (by norm_num)

theorem start_dy (h : fp.Good) {pop : Int} (hp : |pop| ≤ 1000) {x y r : ℚ} (f : Int) (zy zr : ℤ) (hy : x * pop = y) (hy0 : 0 ≤ y)
    (hy1 : y < 1000) (hf : ⌊y⌋ = f) (hf1 : |f| ≤ 1000) (hr : y + -f = r) (hzy : |zy| ≤ 1000) (hzr : |zr| ≤ 1000)
    (ey : y = (zy : ℚ) / 2 ^ 4) (er : r = (zr : ℚ) / 2 ^ 4) : start fp pop (.fin x) = .ok (f, .fin r) := by
  unfold start
  have hof : ∀ z : Int, |z| ≤ 1000 → fp.ofInt z = .fin z := fun z hz => rnd_int h (hz.trans (by norm_num))
  have hm : fp.mul (.fin x) (.fin pop) = .fin y := by
    show fp.rnd (x * pop) = _
    rw [hy]
    exact dy h zy hzy ey
  rw [hof pop hp, hm, toInt32_nonneg hy0 (by linarith), hf, Out.ok_bind, hof f hf1]
  have hs : fp.sub (.fin y) (.fin f) = .fin r := by
    show fp.rnd (y + -f) = _
    rw [hr]
    exact dy h zr hzr er
  rw [hs]
  rfl

theorem three_shares (h : fp.Good) : (([7, 7, 2] : List ℚ).map Fl.fin).map (fun x => fp.div x (sumVec (numFl fp) (([7, 7, 2] : List ℚ).map Fl.fin))) =
    ([7 / 16, 7 / 16, 1 / 8] : List ℚ).map Fl.fin := by
  have e : sumVec (numFl fp) (([7, 7, 2] : List ℚ).map Fl.fin) = .fin 16 := by
    show fp.add (fp.add (fp.add (.fin 0) (.fin 7)) (.fin 7)) (.fin 2) = _
    have e1 : fp.add (.fin 0) (.fin 7) = .fin 7 := by
      show fp.rnd (0 + 7) = _
      rw [zero_add]
      exact dy h 112 (by norm_num) (by norm_num)
    have e2 : fp.add (.fin 7) (.fin 7) = .fin 14 := by
      show fp.rnd (7 + 7) = _
      rw [show (7 + 7 : ℚ) = 14 by norm_num]
      exact dy h 224 (by norm_num) (by norm_num)
    have e3 : fp.add (.fin 14) (.fin 2) = .fin 16 := by
      show fp.rnd (14 + 2) = _
      rw [show (14 + 2 : ℚ) = 16 by norm_num]
      exact dy h 256 (by norm_num) (by norm_num)
    rw [e1, e2, e3]
  rw [e]
  have d : ∀ x y : ℚ, ∀ z : ℤ, |z| ≤ 1000 → x / 16 = y → y = (z : ℚ) / 2 ^ 4 → fp.div (.fin x) (.fin 16) = .fin y := by
    intro x y z hz h1 h2
    show (if (16 : ℚ) = 0 then FP.infOfSign x else fp.rnd (x / 16)) = _
    rw [if_neg (by norm_num), h1]
    exact dy h z hz h2
  simp only [List.map_cons, List.map_nil]
  rw [d 7 (7 / 16) 7 (by norm_num) (by norm_num) (by norm_num), d 2 (1 / 8) 2 (by norm_num) (by norm_num) (by norm_num)]

theorem three_run (h : fp.Good) : ∃ e, oneD fp (([7, 7, 2] : List ℚ).map Fl.fin) 3 = .ok ([1, 1, 1], e) := by
  have s1 : start fp 3 (.fin (7 / 16)) = .ok (1, .fin (5 / 16)) :=
    start_dy h (by norm_num) 1 21 5 (y := 21 / 16) (by norm_num) (by norm_num) (by norm_num) (by rw [Int.floor_eq_iff]; norm_num)
      (by norm_num) (by norm_num) (by norm_num) (by norm_num) (by norm_num) (by norm_num)
  have s2 : start fp 3 (.fin (1 / 8)) = .ok (0, .fin (6 / 16)) :=
    start_dy h (by norm_num) 0 6 6 (y := 6 / 16) (by norm_num) (by norm_num) (by norm_num) (by rw [Int.floor_eq_iff]; norm_num)
      (by norm_num) (by norm_num) (by norm_num) (by norm_num) (by norm_num) (by norm_num)
  have hM : (([7 / 16, 7 / 16, 1 / 8] : List ℚ).map Fl.fin).mapM (start fp 3) =
      .ok [(1, .fin (5 / 16)), (1, .fin (5 / 16)), (0, .fin (6 / 16))] := by
    simp only [List.map_cons, List.map_nil, List.mapM_cons, List.mapM_nil, s1, s2, Out.ok_bind]
    rfl
  have hmax : maxElement [.fin (5 / 16), .fin (5 / 16), .fin (6 / 16)] = 2 := by
    show maxFrom [.fin (5 / 16), .fin (6 / 16)] 1 0 (.fin (5 / 16)) = 2
    rw [maxFrom, if_neg (by simp [FP.lt]), maxFrom, if_pos (by simp only [FP.lt, decide_eq_true_eq]; norm_num), maxFrom]
  unfold oneD
  rw [if_neg (by norm_num), three_shares h]
  unfold marginal
  rw [hM, Out.ok_bind]
  simp only [List.map_cons, List.map_nil]
  have t1 : total [1, 1, 0] = .ok 2 := by decide
  have t2 : total [1, 1, 1] = .ok 3 := by decide
  rw [t1, Out.ok_bind]
  rw [loop_step (s' := ⟨[1, 1, 1], [.fin (5 / 16), .fin (5 / 16), fp.sub (.fin (6 / 16)) (.fin 1)], 3⟩) (by decide) (by
      unfold bump
      simp only [hmax]
      show (int32 (0 + 1) >>= fun k' => _) = _
      rw [int32_ok (by norm_num) (by norm_num), Out.ok_bind]
      show (total [1, 1, 1] >>= fun k' => _) = _
      rw [t2]
      rfl)]
  rw [loop_exit (by simp)]
  exact ⟨_, rfl⟩

theorem four_run (h : fp.Good) : ∃ e, oneD fp (([7, 7, 2] : List ℚ).map Fl.fin) 4 = .ok ([2, 2, 0], e) := by
  have s1 : start fp 4 (.fin (7 / 16)) = .ok (1, .fin (3 / 4)) :=
    start_dy h (by norm_num) 1 28 12 (y := 7 / 4) (by norm_num) (by norm_num) (by norm_num) (by rw [Int.floor_eq_iff]; norm_num)
      (by norm_num) (by norm_num) (by norm_num) (by norm_num) (by norm_num) (by norm_num)
  have s2 : start fp 4 (.fin (1 / 8)) = .ok (0, .fin (1 / 2)) :=
    start_dy h (by norm_num) 0 8 8 (y := 1 / 2) (by norm_num) (by norm_num) (by norm_num) (by rw [Int.floor_eq_iff]; norm_num)
      (by norm_num) (by norm_num) (by norm_num) (by norm_num) (by norm_num) (by norm_num)
  have hM : (([7 / 16, 7 / 16, 1 / 8] : List ℚ).map Fl.fin).mapM (start fp 4) =
      .ok [(1, .fin (3 / 4)), (1, .fin (3 / 4)), (0, .fin (1 / 2))] := by
    simp only [List.map_cons, List.map_nil, List.mapM_cons, List.mapM_nil, s1, s2, Out.ok_bind]
    rfl
  have hsub : fp.sub (.fin (3 / 4)) (.fin 1) = .fin (-1 / 4) := by
    show fp.rnd (3 / 4 + -1) = _
    rw [show (3 / 4 + -1 : ℚ) = -1 / 4 by norm_num]
    exact dy h (-4) (by norm_num) (by norm_num)
  have hmax : maxElement [.fin (3 / 4), .fin (3 / 4), .fin (1 / 2)] = 0 := by
    show maxFrom [.fin (3 / 4), .fin (1 / 2)] 1 0 (.fin (3 / 4)) = 0
    rw [maxFrom, if_neg (by simp [FP.lt]), maxFrom, if_neg (by simp only [FP.lt, decide_eq_true_eq]; norm_num), maxFrom]
  have hmax2 : maxElement [.fin (-1 / 4), .fin (3 / 4), .fin (1 / 2)] = 1 := by
    show maxFrom [.fin (3 / 4), .fin (1 / 2)] 1 0 (.fin (-1 / 4)) = 1
    rw [maxFrom, if_pos (by simp only [FP.lt, decide_eq_true_eq]; norm_num), maxFrom,
      if_neg (by simp only [FP.lt, decide_eq_true_eq]; norm_num), maxFrom]
  unfold oneD
  rw [if_neg (by norm_num), three_shares h]
  unfold marginal
  rw [hM, Out.ok_bind]
  simp only [List.map_cons, List.map_nil]
  have t1 : total [1, 1, 0] = .ok 2 := by decide
  have t2 : total [2, 1, 0] = .ok 3 := by decide
  have t3 : total [2, 2, 0] = .ok 4 := by decide
  rw [t1, Out.ok_bind]
  rw [loop_step (s' := ⟨[2, 1, 0], [.fin (-1 / 4), .fin (3 / 4), .fin (1 / 2)], 3⟩) (by decide) (by
      unfold bump
      simp only [hmax]
      show (int32 (1 + 1) >>= fun k' => _) = _
      rw [int32_ok (by norm_num) (by norm_num), Out.ok_bind]
      show (total [2, 1, 0] >>= fun k' => _) = _
      rw [t2, hsub]
      rfl)]
  rw [loop_step (s' := ⟨[2, 2, 0], [.fin (-1 / 4), .fin (-1 / 4), .fin (1 / 2)], 4⟩) (by decide) (by
      unfold bump
      simp only [hmax2]
      show (int32 (1 + 1) >>= fun k' => _) = _
      rw [int32_ok (by norm_num) (by norm_num), Out.ok_bind]
      show (total [2, 2, 0] >>= fun k' => _) = _
      rw [t3, hsub]
      rfl)]
  rw [loop_exit (by simp)]
  exact ⟨_, rfl⟩

end Integerise
end HL
