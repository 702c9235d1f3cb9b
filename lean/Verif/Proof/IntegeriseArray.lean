import Verif.Proof.IntegeriseExact
import Verif.Props.QISI

/-
Integerisation of an array with two or more dimensions.
-/

namespace HL
namespace Integerise
variable {fp : FP}

theorem round_fin (q : ℚ) : FP.round (.fin q) = .fin (FP.roundHalfAway q) := rfl

theorem truncQ_int (n : Int) : FP.truncQ (n : ℚ) = n := by
  unfold FP.truncQ; split <;> simp

theorem toInt64_int {n m : Int} (h : FP.toInt64 (.fin (n : ℚ)) = .ok m) : m = n := by
  simp only [FP.toInt64, truncQ_int] at h
  split at h
  · injection h with h; exact h.symm
  · cases h

theorem checkedRound_inv {x : Fl} {n : Int} (h : checkedRound fp x = .ok n) : NearInt fp x n := by
  unfold checkedRound at h
  split at h
  · cases h
  · next hlt =>
    cases x with
    | fin q =>
      rw [round_fin] at h hlt
      have := toInt64_int h
      subst this
      exact ⟨rfl, by simpa [tol4] using hlt⟩
    | pinf => cases h
    | ninf => cases h
    | nan => cases h

theorem roundHalfAway_near (q : ℚ) : |(FP.roundHalfAway q : ℚ) - q| ≤ 1 / 2 := by
  unfold FP.roundHalfAway
  split
  · have h1 := Int.floor_le (q + 1 / 2)
    have h2 := Int.lt_floor_add_one (q + 1 / 2)
    rw [abs_le]; constructor <;> linarith
  · have h1 := Int.le_ceil (q - 1 / 2)
    have h2 := Int.ceil_lt_add_one (q - 1 / 2)
    rw [abs_le]; constructor <;> linarith

theorem roundHalfAway_eq {q : ℚ} {n : Int} (h : |q - n| < 1 / 2) : FP.roundHalfAway q = n := by
  obtain ⟨h1, h2⟩ := abs_lt.mp h
  obtain ⟨h3, h4⟩ := abs_le.mp (roundHalfAway_near q)
  have h5 : (FP.roundHalfAway q : ℚ) < n + 1 := by linarith
  have h6 : (n : ℚ) < FP.roundHalfAway q + 1 := by linarith
  have h5' : FP.roundHalfAway q < n + 1 := by exact_mod_cast h5
  have h6' : n < FP.roundHalfAway q + 1 := by exact_mod_cast h6
  omega

theorem checkedRound_cases {q : ℚ} (h : |q| ≤ 2 ^ 62) :
    (∃ n, checkedRound fp (.fin q) = .ok n) ∨
      (checkedRound fp (.fin q) = .thrown .notInteger ∧ ∀ n, ¬ NearInt fp (.fin q) n) := by
  unfold checkedRound
  rw [round_fin]
  split
  · next hlt =>
    refine Or.inr ⟨rfl, ?_⟩
    rintro n ⟨h1, h2⟩
    rw [round_fin] at h1
    injection h1 with h1
    have : FP.roundHalfAway q = n := by exact_mod_cast h1
    rw [this] at hlt
    unfold tol4 at hlt
    rw [h2] at hlt
    exact absurd hlt (by simp)
  · left
    have h1 := abs_le.mp (roundHalfAway_near q)
    have h2 := abs_le.mp h
    have h3 : (FP.roundHalfAway q : ℚ) < 2 ^ 63 := by
      have : (2 : ℚ) ^ 62 + 1 / 2 < 2 ^ 63 := by norm_num
      linarith [h1.2, h2.2]
    have h4 : -(2 : ℚ) ^ 63 ≤ FP.roundHalfAway q := by
      have : (2 : ℚ) ^ 62 + 1 / 2 < 2 ^ 63 := by norm_num
      linarith [h1.1, h2.1]
    refine ⟨FP.roundHalfAway q, ?_⟩
    simp only [FP.toInt64, truncQ_int]
    rw [if_pos ⟨by exact_mod_cast h4, by exact_mod_cast h3⟩]

/-- In exact arithmetic: within 1e-4 of the integer. -/
theorem nearInt_exact {q : ℚ} {n : Int} : NearInt FP.exact (.fin q) n ↔ |q - n| ≤ 1 / 10 ^ 4 := by
  have e : (FP.lt (FP.exact.rnd (1 / 10 ^ 4)) (FP.abs (FP.exact.sub (.fin q) (.fin n))) = false) ↔ |q - n| ≤ 1 / 10 ^ 4 := by
    show decide ((1 : ℚ) / 10 ^ 4 < |q + -(n : ℚ)|) = false ↔ _
    rw [decide_eq_false_iff_not, not_lt, ← sub_eq_add_neg]
  constructor
  · rintro ⟨-, h⟩; exact e.mp h
  · intro h
    refine ⟨?_, e.mpr h⟩
    rw [round_fin, roundHalfAway_eq (lt_of_le_of_lt h (by norm_num))]

theorem nearInt_unique {x : Fl} {n m : Int} (h : NearInt fp x n) (h' : NearInt fp x m) : n = m := by
  have := h.1.symm.trans h'.1
  injection this with this
  exact_mod_cast this

theorem mapM_inv {α β : Type} {g : α → Out β} : ∀ {l : List α} {v : List β}, l.mapM g = .ok v →
    ∀ x ∈ l, ∃ y, g x = .ok y
  | [], _, _ => by simp
  | a :: l, v, h => by
    rw [List.mapM_cons] at h
    obtain ⟨b, hb, h⟩ := Out.bind_eq_ok.mp h
    obtain ⟨w, hw, -⟩ := Out.bind_eq_ok.mp h
    intro x hx
    rcases List.mem_cons.mp hx with rfl | hx
    · exact ⟨b, hb⟩
    · exact mapM_inv hw x hx

theorem mapM_thrown {α β : Type} {g : α → Out β} {e : Exn} : ∀ {l : List α},
    (∀ x ∈ l, (∃ y, g x = .ok y) ∨ g x = .thrown e) → (∃ x ∈ l, ¬ ∃ y, g x = .ok y) → l.mapM g = .thrown e
  | [], _, h => by simp at h
  | a :: l, h1, h2 => by
    rw [List.mapM_cons]
    rcases h1 a (by simp) with ⟨y, hy⟩ | hy
    · obtain ⟨x, hx, hn⟩ := h2
      rcases List.mem_cons.mp hx with rfl | hx
      · exact absurd ⟨y, hy⟩ hn
      · rw [hy, mapM_thrown (fun x hx => h1 x (by simp [hx])) ⟨x, hx, hn⟩]; rfl
    · rw [hy]; rfl

theorem reduce1_fsum {s : List Nat} (hg : GoodShape s) (a : List Int → Fl) {d : Nat} (hd : d < s.length) :
    reduce1 (numFl fp) (arr s a) d = .ok ((List.range (s.getD d 0)).map (fun i : Nat => fsum fp s [d] a [(i : Int)])) := by
  rw [reduce1_eq (numFl fp) hg a hd]
  congr 1
  apply List.map_congr_left
  intro i _
  unfold fsum
  simp [proj, numFl]

theorem marginalOf_eq {s : List Nat} (hg : GoodShape s) (a : List Int → Fl) {d : Nat} (hd : d < s.length) :
    marginalOf fp (arr s a) d = (List.range (s.getD d 0)).mapM (fun i : Nat => checkedRound fp (fsum fp s [d] a [(i : Int)])) >>=
      fun v => (arrO [s.getD d 0] (fun _ => none)).copyIn v := by
  have hp : 0 < s.getD d 0 := by
    rw [List.getD_eq_getElem _ _ hd]
    exact hg.2 _ (List.getElem_mem hd)
  unfold marginalOf
  rw [reduce1_fsum hg a hd, Out.ok_bind, List.length_map, List.length_range,
    resize_eq (s := [s.getD d 0]) ⟨by simp, by simpa using hp⟩ (by simpa [NDArray.empty, prodSizes] using hp), Out.ok_bind,
    List.mapM_map]
  rfl

theorem marginalOf_ok {s : List Nat} (hg : GoodShape s) (a : List Int → Fl) {d : Nat} (hd : d < s.length) {N : Nat → Int}
    (hN : ∀ i < s.getD d 0, checkedRound fp (fsum fp s [d] a [(i : Int)]) = .ok (N i)) :
    marginalOf fp (arr s a) d = .ok (arr [s.getD d 0] (fun j => N (j.getD 0 0).toNat)) := by
  rw [marginalOf_eq hg a hd, Integerise.mapM_ok (h := N) (fun i hi => hN i (List.mem_range.mp hi)), Out.ok_bind]
  have : (List.range (s.getD d 0)).map N = (allIdx [s.getD d 0]).map (fun j => N (j.getD 0 0).toNat) := by
    rw [allIdx_one, List.map_map]
    apply List.map_congr_left
    intro i _
    simp
  rw [this, copyIn_eq]

/-- the problem passed to `QISI`: the rounded sums in every dimension -/
def roundProb (s : List Nat) (N : Nat → Nat → Int) : Prob Int :=
  (List.range s.length).map (fun d => ([d], fun j => N d (j.getD 0 0).toNat))

theorem roundProb_indices (s : List Nat) (N : Nat → Nat → Int) :
    indicesOf (roundProb s N) = (List.range s.length).map (fun d : Nat => [(d : Int)]) := by
  unfold indicesOf roundProb
  rw [List.map_map]; rfl

theorem roundProb_marginals (s : List Nat) (N : Nat → Nat → Int) :
    marginalsOf s (roundProb s N) = (List.range s.length).map (fun d => arr [s.getD d 0] (fun j => N d (j.getD 0 0).toNat)) := by
  unfold marginalsOf roundProb
  rw [List.map_map]; rfl

theorem roundProb_shape {s : List Nat} (hg : GoodShape s) (h2 : 2 ≤ s.length) (N : Nat → Nat → Int) :
    ProbShape s (roundProb s N) where
  lists := by simpa [roundProb] using h2
  two := h2
  pos := hg.2
  dims := by
    intro p hp
    obtain ⟨d, hd, rfl⟩ := List.mem_map.mp hp
    simpa using List.mem_range.mp hd
  cover := by
    intro d hd
    exact ⟨_, List.mem_map.mpr ⟨d, List.mem_range.mpr hd, rfl⟩, by simp⟩

theorem roundProb_flatten (s : List Nat) (N : Nat → Nat → Int) :
    ((roundProb s N).map Prod.fst).flatten.Nodup := by
  have : ((roundProb s N).map Prod.fst).flatten = List.range s.length := by
    unfold roundProb
    rw [List.map_map]
    show ((List.range s.length).map (fun d => [d])).flatten = _
    rw [← List.flatMap_def, List.flatMap_singleton']
  rw [this]
  exact List.nodup_range

theorem cells_one (n : Nat) : cells [n] = (Finset.range n).image (fun i : Nat => [(i : Int)]) := by
  ext v
  unfold cells
  rw [allIdx_one]
  simp

theorem sum_one (n : Nat) (F : Nat → Int) : ∑ j ∈ cells [n], F (j.getD 0 0).toNat = ∑ i ∈ Finset.range n, F i := by
  rw [cells_one, Finset.sum_image]
  · simp
  · intro i _ j _ h
    simpa using h

theorem roundProb_sum {s : List Nat} {N : Nat → Nat → Int} {d : Nat} :
    ∑ j ∈ cells (projSizes [d] s), N d (j.getD 0 0).toNat = ∑ i ∈ Finset.range (s.getD d 0), N d i :=
  sum_one _ _

/-- The object of the constructor passed to the rounded sums is accepted exactly when the problem is consistent. -/
theorem roundProb_new (hfp : fp.Good) {s : List Nat} (hg : GoodShape s) (h2 : 2 ≤ s.length) {N : Nat → Nat → Int}
    (hb : ∀ d < s.length, |∑ i ∈ Finset.range (s.getD d 0), N d i| < 2 ^ 52) :
    (∃ pop, ProbOK s (roundProb s N) pop ∧ pop < 2 ^ 52) ∨
      ∃ e, Micro.new (β := Int) fp (numInt fp) (indicesOf (roundProb s N)) (marginalsOf s (roundProb s N)) = .thrown e := by
  have hsm : ∀ p ∈ roundProb s N, |∑ j ∈ cells (projSizes p.1 s), p.2 j| < 2 ^ 52 := by
    intro p hp
    obtain ⟨d, hd, rfl⟩ := List.mem_map.mp hp
    rw [roundProb_sum]
    exact hb d (List.mem_range.mp hd)
  rcases new_shape (β := Int) fp (numInt fp) (minOK_int fp) (roundProb_shape hg h2 N) (fun p hp => by
        unfold roundedTotal
        rw [seqSum_int]
        exact rounded_int_ok hfp (hsm p hp)) with ⟨pop, h4, h5⟩ | ⟨h4, -⟩
  · left
    have hok := (probOK_iff hfp hsm).mp h4
    refine ⟨pop, hok, ?_⟩
    have hmem : (([0] : List Nat), fun j : List Int => N 0 (j.getD 0 0).toNat) ∈ roundProb s N :=
      List.mem_map.mpr ⟨0, List.mem_range.mpr (by omega), rfl⟩
    have := hsm _ hmem
    rw [hok.total _ hmem] at this
    exact (abs_lt.mp this).2
  · exact Or.inr h4

theorem sqErr_ok {s : List Nat} (hg : GoodShape s) (f : List Int → Int) (a : List Int → Fl) :
    ∃ e, sqErr fp (arr s f) (arr s a) = .ok e := by
  unfold sqErr
  rw [show (arr s f).sizes = s from rfl, forIndex_eq hg]
  have : ∀ (l : List (List Int)) (c : Fl), (∀ v ∈ l, InRange s v) → ∃ e, l.foldlM (fun acc idx => do
      let x ← (arr s f).get idx
      let y ← (arr s a).get idx
      pure (fp.add acc (fp.mul (fp.sub (fp.ofInt x) y) (fp.sub (fp.ofInt x) y)))) c = .ok e := by
    intro l
    induction l with
    | nil => intro c _; exact ⟨c, rfl⟩
    | cons v l ih =>
      intro c hl
      rw [List.foldlM_cons, get_arr (hl v (by simp)), get_arr (hl v (by simp))]
      exact ih _ (fun w hw => hl w (by simp [hw]))
  exact this _ _ (fun v hv => mem_allIdx.mp hv)

/-- The run on an array with rounded sums `N`. -/
theorem array_eq {s : List Nat} (hg : GoodShape s) (lm : Libm) {a : List Int → Fl} {N : Nat → Nat → Int}
    (hN : ∀ d < s.length, ∀ i < s.getD d 0, checkedRound fp (fsum fp s [d] a [(i : Int)]) = .ok (N d i)) :
    array false fp lm (arr s a) = (do
      let x ← qisi fp lm s (roundProb s N) a 0
      let b ← NDArray.copy x.micro.array NDArray.empty
      let e ← sqErr fp b (arr s a)
      pure ⟨b, x.conv, fp.sqrt (fp.div e (fp.ofInt b.storageSize))⟩) := by
  unfold array
  rw [show (arr s a).dim = s.length from rfl, Integerise.mapM_ok (h := fun d => arr [s.getD d 0] (fun j => N d (j.getD 0 0).toNat))
    (fun d hd => marginalOf_ok hg a (List.mem_range.mp hd) (hN d (List.mem_range.mp hd))), Out.ok_bind, qisi,
    roundProb_indices, roundProb_marginals]

theorem array_inv {s : List Nat} (hg : GoodShape s) {lm : Libm} {a : List Int → Fl} {r : Result}
    (h : array false fp lm (arr s a) = .ok r) :
    ∃ N : Nat → Nat → Int, ∀ d < s.length, ∀ i < s.getD d 0, checkedRound fp (fsum fp s [d] a [(i : Int)]) = .ok (N d i) := by
  unfold array at h
  obtain ⟨ms, hms, -⟩ := Out.bind_eq_ok.mp h
  have h1 : ∀ d i : Nat, d < s.length → i < s.getD d 0 → ∃ n, checkedRound fp (fsum fp s [d] a [(i : Int)]) = .ok n := by
    intro d i hd hi
    obtain ⟨m, hm⟩ := mapM_inv hms d (List.mem_range.mpr hd)
    rw [marginalOf_eq hg a hd] at hm
    obtain ⟨v, hv, -⟩ := Out.bind_eq_ok.mp hm
    exact mapM_inv hv i (List.mem_range.mpr hi)
  refine ⟨fun d i => if h : d < s.length ∧ i < s.getD d 0 then Classical.choose (h1 d i h.1 h.2) else 0, ?_⟩
  intro d hd i hi
  beta_reduce
  rw [dif_pos ⟨hd, hi⟩]
  exact Classical.choose_spec (h1 d i hd hi)

/-- The constructor on an array with two or more dimensions. -/
theorem run_array {s : List Nat} (h2 : 2 ≤ s.length) (lm : Libm) (a : List Int → Fl) :
    run false fp lm (arr s a) = checkedRound fp (seqSum (numFl fp) s a) >>= fun _ => array false fp lm (arr s a) := by
  unfold run
  rw [sumArr_eq, Out.ok_bind]
  show checkedRound fp (seqSum (numFl fp) s a) >>= _ = _
  congr 1
  funext _
  rw [if_neg (by show ¬ s.length = 1; omega)]

end Integerise
end HL
