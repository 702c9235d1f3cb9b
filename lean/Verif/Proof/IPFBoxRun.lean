import Verif.Proof.IPFBox
import Verif.Proof.IPFPartwayRound
import Verif.Proof.IPFDecomp
import Verif.Proof.IPFBackward
import Verif.Proof.QISIDisjoint

/-
The tables of a run of `ipf` with a positive seed and marginals without common dimensions (C133).
-/

set_option exponentiation.threshold 1100

namespace HL
open Micro
variable {fp : FP}

theorem box_pos {s : List Nat} {W : Prob ℚ} {lo hi L : ℚ} {x : List Int → ℚ} (hd : DimsLt s W) (hlo : 0 < lo)
    (hx : Box s W lo hi L x) : ∀ v, InRange s v → 0 < x v := by
  obtain ⟨U, b, hU, hb⟩ := hx
  intro v hv
  rw [(hb v hv).2.2]
  exact mul_pos (hlo.trans_le (hb v hv).1) (prodAt_pos hv hd hU)

theorem marginalSum_pos {s ds : List Nat} (hpos : ∀ n ∈ s, 0 < n) (hn : Loose s ds) (hd : ∀ d ∈ ds, d < s.length) {x : List Int → ℚ}
    (hx : ∀ v, InRange s v → 0 < x v) {j : List Int} (hj : InRange (projSizes ds s) j) : 0 < marginalSum s ds x j := by
  obtain ⟨v, hv, hvj⟩ := exists_proj hpos hn hd hj
  exact Finset.sum_pos (fun u hu => hx u (mem_cells.mp (Finset.mem_filter.mp hu).1))
    ⟨v, Finset.mem_filter.mpr ⟨mem_cells.mpr hv, hvj⟩⟩

theorem splits_mid {s : List Nat} {A B : Prob ℚ} {q : List Nat × (List Int → ℚ)} (hs : Splits s (A ++ q :: B)) : q.1.Nodup := by
  have := hs.nodup
  rw [List.map_append, List.flatten_append, List.map_cons, List.flatten_cons] at this
  exact (List.nodup_append.mp (List.nodup_append.mp this).2.1).1

theorem qscaled_total {s : List Nat} (hpos : ∀ n ∈ s, 0 < n) {q : List Nat × (List Int → ℚ)} (hn : q.1.Nodup)
    (hd : ∀ d ∈ q.1, d < s.length) {x : List Int → ℚ} (hx : ∀ v, InRange s v → 0 < x v) :
    ∑ v ∈ cells s, qscaled s q.1 q.2 x v = tot s q := by
  rw [← Finset.sum_fiberwise_of_maps_to (t := cells (projSizes q.1 s)) (g := proj q.1)
    (fun v hv => mem_cells.mpr (inRange_proj hd (mem_cells.mp hv)))]
  refine Finset.sum_congr rfl fun j hj => ?_
  exact qscaled_meets fun h0 => absurd h0 (marginalSum_pos hpos (loose_of_nodup hn) hd hx (mem_cells.mp hj)).ne'

section exact
variable {s : List Nat} {lo hi L : ℚ}

/-- a sweep in exact arithmetic -/
theorem box_sweep (hpos : ∀ n ∈ s, 0 < n) (hlo : 0 < lo) (hL : hi ≤ L * lo) : ∀ (R A Wr : Prob ℚ) (x : List Int → ℚ),
    Wr.map Prod.fst = R.map Prod.fst → Splits s (A ++ R) → DimsLt s (A ++ R) →
    (∀ w ∈ A ++ R, ∃ j, InRange (projSizes w.1 s) j) → (∀ q ∈ R, ∀ j, InRange (projSizes q.1 s) j → 0 < q.2 j) →
    Box s (A ++ Wr) lo hi L x → Box s (A ++ R) lo hi L (qsweep s R x) ∧
      ∀ q, R.getLast? = some q → ∑ v ∈ cells s, qsweep s R x v = tot s q
  | [], A, Wr, x, he, _, _, _, _, hx => by
    rw [List.map_nil, List.map_eq_nil_iff] at he
    subst he
    exact ⟨hx, by simp⟩
  | q :: R, A, [], x, he, _, _, _, _, _ => by simp at he
  | q :: R, A, w :: Wr, x, he, hs, hd, hg, hq, hx => by
    rw [List.map_cons, List.map_cons, List.cons.injEq] at he
    have e1 : (A ++ w :: Wr).map Prod.fst = (A ++ q :: R).map Prod.fst := by simp [he.1, he.2]
    have hdims : ∀ {P : List Nat → Prop}, (∀ z ∈ A ++ q :: R, P z.1) → ∀ z ∈ A ++ w :: Wr, P z.1 := by
      intro P h u hu
      have : u.1 ∈ (A ++ q :: R).map Prod.fst := e1 ▸ List.mem_map_of_mem hu
      obtain ⟨u', hu', e⟩ := List.mem_map.mp this
      rw [← e]; exact h u' hu'
    have hd' : DimsLt s (A ++ w :: Wr) := hdims (P := fun l => ∀ d ∈ l, d < s.length) hd
    have hg' := hdims (P := fun l => ∃ j, InRange (projSizes l s) j) hg
    have hxp := box_pos hd' hlo hx
    have hqd : ∀ d ∈ q.1, d < s.length := hd q (by simp)
    have hqn : q.1.Nodup := splits_mid hs
    have hE : ∀ j, InRange (projSizes q.1 s) j → 0 < marginalSum s q.1 x j := fun j hj =>
      marginalSum_pos hpos (loose_of_nodup hqn) hqd hxp hj
    have hstep : Box s (A ++ q :: Wr) lo hi L (qscaled s q.1 q.2 x) := by
      have := box_step (k := 0) (g := 0) (y := qscaled s q.1 q.2 x) (F := fun j => q.2 j / marginalSum s q.1 x j)
        (hs.congr e1) hd' hg' he.1.symm hlo hx (hq q (by simp)) (fun j _ => Rel.refl _) (fun v hv => by
          unfold qscaled
          rw [if_neg (hE _ (inRange_proj hqd hv)).ne']
          exact Rel.refl _) (by simpa using hL)
      simpa using this
    have e2 : A ++ q :: R = (A ++ [q]) ++ R := by simp
    have e3 : A ++ q :: Wr = (A ++ [q]) ++ Wr := by simp
    rw [e3] at hstep
    obtain ⟨h1, h2⟩ := box_sweep hpos hlo hL R (A ++ [q]) Wr _ he.2 (e2 ▸ hs) (e2 ▸ hd) (e2 ▸ hg) (fun q' hq' => hq q' (by simp [hq'])) hstep
    rw [e2]
    refine ⟨h1, ?_⟩
    intro q' hq'
    cases R with
    | nil =>
      simp only [List.getLast?_singleton, Option.some.injEq] at hq'
      subst hq'
      exact qscaled_total hpos hqn hqd hxp
    | cons r R => exact h2 q' (by rwa [List.getLast?_cons_cons] at hq')

end exact

/-! ### Double precision -/

/-- weights for the lists of `Q`, no category of which has less than a part `ρ` of its list -/
structure Weights (s : List Nat) (Q : Prob ℚ) (ρ : ℚ) (W : Prob ℚ) : Prop where
  fst : W.map Prod.fst = Q.map Prod.fst
  pos : ∀ w ∈ W, ∀ j, InRange (projSizes w.1 s) j → 0 < w.2 j
  part : ∀ w ∈ W, ∀ j, InRange (projSizes w.1 s) j → ρ * tot s w ≤ w.2 j

theorem Weights.dims {s : List Nat} {Q W : Prob ℚ} {ρ : ℚ} (h : Weights s Q ρ W) {P : List Nat → Prop} (hP : ∀ q ∈ Q, P q.1) :
    ∀ w ∈ W, P w.1 := by
  intro w hw
  have : w.1 ∈ Q.map Prod.fst := h.fst ▸ List.mem_map_of_mem hw
  obtain ⟨q, hq, e⟩ := List.mem_map.mp this
  rw [← e]; exact hP q hq

/-- a table of the run: `t` scalings after the start -/
structure DInv (s : List Nat) (lo hi : ℚ) (t : Nat) (W : Prob ℚ) (a : List Int → Fl) (x : List Int → ℚ) : Prop where
  agree : Agree s a x
  box : Box s W (uu ^ t * lo) (hi / uu ^ t) (2 * (hi / lo)) x
  size : ∀ v, InRange s v → 1 / 2 ^ 200 ≤ x v ∧ x v ≤ 2 ^ 201

theorem rel_cancel {k : Nat} {x a b : ℚ} (hx : 0 < x) (h : Rel k (x * a) (x * b)) : Rel k a b := by
  constructor
  · exact le_of_mul_le_mul_left (by linarith [h.1, mul_left_comm x (uu ^ k) b]) hx
  · exact le_of_mul_le_mul_left (by linarith [h.2, mul_left_comm x (uu ^ k) a]) hx

theorem weights_low {s : List Nat} {ρ L : ℚ} (hρ : 0 ≤ ρ) {v : List Int} (hv : InRange s v) : ∀ {W : Prob ℚ}, DimsLt s W →
    (∀ w ∈ W, ∀ j, InRange (projSizes w.1 s) j → 0 < w.2 j) →
    (∀ w ∈ W, ∀ j, InRange (projSizes w.1 s) j → ρ * tot s w ≤ w.2 j) →
    0 < (W.map (tot s)).prod ∧ ρ ^ W.length * (W.map (tot s)).prod ≤ prodAt W v ∧
      (W.map (fun w => L * tot s w)).prod = L ^ W.length * (W.map (tot s)).prod
  | [], _, _, _ => by simp [prodAt]
  | w :: W, hd, hp, hr => by
    obtain ⟨h1, h2, h3⟩ := weights_low (L := L) hρ hv (W := W) (fun w hw => hd w (by simp [hw])) (fun w hw => hp w (by simp [hw]))
      (fun w hw => hr w (by simp [hw]))
    have hj := inRange_proj (hd w (by simp)) hv
    have t1 : 0 < tot s w := Finset.sum_pos (fun i hi => hp w (by simp) i (mem_cells.mp hi)) ⟨_, mem_cells.mpr hj⟩
    rw [prodAt_cons, List.map_cons, List.prod_cons, List.map_cons, List.prod_cons, List.length_cons, h3]
    refine ⟨mul_pos t1 h1, ?_, by ring⟩
    have := mul_le_mul (hr w (by simp) _ hj) h2 (mul_nonneg (pow_nonneg hρ _) h1.le) (hp w (by simp) _ hj).le
    refine le_trans (le_of_eq ?_) this
    ring

section double
variable {s : List Nat} {Q : Prob ℚ} {lo hi ρ : ℚ} {f : Nat} {pop : Int}
  (hpos : ∀ n ∈ s, 0 < n) (hs : Splits s Q) (hd : DimsLt s Q) (hg : ∀ w ∈ Q, ∃ j, InRange (projSizes w.1 s) j)
  (hm : ∀ q ∈ Q, ∀ j, InRange (projSizes q.1 s) j → MidSize (q.2 j)) (htot : ∀ q ∈ Q, tot s q = pop)
  (hf : ∀ q ∈ Q, ∀ j, ((cells s).filter (fun w => proj q.1 w = j)).card ≤ f)
  (hlo : 0 < lo) (hlh : lo ≤ hi) (hρ : 0 ≤ ρ)
  (hsize : 1 / 2 ^ 200 ≤ (pop : ℚ) / (4 * (hi / lo)) * (ρ / (2 * (hi / lo))) ^ Q.length)
include hpos hs hd hg hm htot hf hlo hlh hρ hsize

/-- one scaling in double precision -/
theorem dinv_step (hfp : fp.Good) {t : Nat} (ht : t + f + 4 ≤ 2 ^ 51) (hf' : f ≤ 2 ^ 50) {A B : Prob ℚ}
    {w q : List Nat × (List Int → ℚ)} (hqw : q.1 = w.1) (hqQ : q ∈ Q) (hW : Weights s Q ρ (A ++ w :: B))
    (hW' : Weights s Q ρ (A ++ q :: B)) {a : List Int → Fl} {x : List Int → ℚ} (h : DInv s lo hi t (A ++ w :: B) a x) :
    ∃ y, DInv s lo hi (t + 1) (A ++ q :: B) (scaled fp (numFl fp) s q.1 (fun j => .fin (q.2 j)) a) y ∧
      ∀ v, InRange s v → Rel (f + 2) (y v) (qscaled s q.1 q.2 x v) := by
  have hsW := hs.congr hW.fst
  have hsW' := hs.congr hW'.fst
  have hdW : DimsLt s (A ++ w :: B) := hW.dims (P := fun l => ∀ d ∈ l, d < s.length) hd
  have hdW' : DimsLt s (A ++ q :: B) := hW'.dims (P := fun l => ∀ d ∈ l, d < s.length) hd
  have hgW := hW.dims (P := fun l => ∃ j, InRange (projSizes l s) j) hg
  have hlt : 0 < uu ^ t * lo := mul_pos (uu_pow_pos t) hlo
  have hhi : 0 < hi := hlo.trans_le hlh
  have hxp : ∀ v, InRange s v → 0 < x v := fun v hv => lt_of_lt_of_le (by positivity) (h.size v hv).1
  have hqd := hd q hqQ
  have hqn : q.1.Nodup := splits_mid hsW'
  have hE : ∀ j, InRange (projSizes q.1 s) j → 0 < marginalSum s q.1 x j := fun j hj =>
    marginalSum_pos hpos (loose_of_nodup hqn) hqd hxp hj
  have hmq : ∀ j, InRange (projSizes q.1 s) j → 0 < q.2 j := fun j hj => lt_of_lt_of_le (by positivity) (hm q hqQ j hj).1
  have hqs : ∀ v, InRange s v → qscaled s q.1 q.2 x v = x v * (q.2 (proj q.1 v) / marginalSum s q.1 x (proj q.1 v)) := by
    intro v hv
    unfold qscaled
    rw [if_neg (hE _ (inRange_proj hqd hv)).ne']
  have key : ∀ v, ∃ y : ℚ, InRange s v → scaled fp (numFl fp) s q.1 (fun j => .fin (q.2 j)) a v = .fin y ∧
      Rel (f + 2) y (qscaled s q.1 q.2 x v) := by
    intro v
    by_cases hv : InRange s v
    · obtain ⟨y, h1, h2⟩ := scaled_rel hfp hv h.agree (fun v hv => ⟨.inr (h.size v hv).1, (h.size v hv).2⟩)
        (.inr (hm q hqQ _ (inRange_proj hqd hv))) (hf q hqQ _) hf'
      exact ⟨y, fun _ => ⟨h1, h2⟩⟩
    · exact ⟨0, fun h => absurd h hv⟩
  choose y hy using key
  -- the size of the exact result
  have hq0 : ∀ v, InRange s v → 0 < qscaled s q.1 q.2 x v := by
    intro v hv
    rw [hqs v hv]
    exact mul_pos (hxp v hv) (div_pos (hmq _ (inRange_proj hqd hv)) (hE _ (inRange_proj hqd hv)))
  have hqle : ∀ v, InRange s v → qscaled s q.1 q.2 x v ≤ 2 ^ 200 := fun v hv =>
    (qscaled_le hv (fun v hv => (hxp v hv).le) (hmq _ (inRange_proj hqd hv)).le).trans (hm q hqQ _ (inRange_proj hqd hv)).2
  have hElt : ∀ j, InRange (projSizes q.1 s) j → marginalSum s q.1 x j ≤ 2 ^ 251 := by
    intro j hj
    have h1 : marginalSum s q.1 x j ≤ ((cells s).filter (fun w => proj q.1 w = j)).card • (2 : ℚ) ^ 201 :=
      Finset.sum_le_card_nsmul _ _ _ (fun w hw => (h.size w (mem_cells.mp (Finset.mem_filter.mp hw).1)).2)
    rw [nsmul_eq_mul] at h1
    have h2 : ((((cells s).filter (fun w => proj q.1 w = j)).card : ℕ) : ℚ) ≤ 2 ^ 50 := by exact_mod_cast (hf q hqQ j).trans hf'
    refine h1.trans ((mul_le_mul_of_nonneg_right h2 (by positivity)).trans (le_of_eq ?_))
    rw [← pow_add]
  have hqge : ∀ v, InRange s v → 1 / 2 ^ 651 ≤ qscaled s q.1 q.2 x v := by
    intro v hv
    have hj := inRange_proj hqd hv
    rw [hqs v hv]
    have h1 : (1 : ℚ) / 2 ^ 451 ≤ q.2 (proj q.1 v) / marginalSum s q.1 x (proj q.1 v) := by
      rw [le_div_iff₀ (hE _ hj)]
      refine le_trans ?_ (hm q hqQ _ hj).1
      have h3 := mul_le_mul_of_nonneg_left (hElt _ hj) (show (0 : ℚ) ≤ 1 / 2 ^ 451 by positivity)
      have h2 : (1 : ℚ) / 2 ^ 451 * 2 ^ 251 = 1 / 2 ^ 200 := by norm_num
      linarith
    have := mul_le_mul (h.size v hv).1 h1 (by positivity) (hxp v hv).le
    refine le_trans (le_of_eq ?_) this
    norm_num
  have hyreg : ∀ v, InRange s v → Regular (y v) := by
    intro v hv
    have h1 := (hy v hv).2.lower (by omega) (hq0 v hv).le
    have h2 := (hy v hv).2.upper (by omega) ((hy v hv).2.nonneg (hq0 v hv).le)
    have h3 := hqge v hv
    have h4 := hqle v hv
    constructor
    · have : (2 : ℚ) ^ (-1021 : ℤ) ≤ 1 / 2 ^ 651 / 2 := by
        rw [show (1 : ℚ) / 2 ^ 651 / 2 = 2 ^ (-652 : ℤ) by norm_num [zpow_neg]]
        exact zpow_le_zpow_right₀ (by norm_num) (by norm_num)
      exact this.trans ((div_le_div_of_nonneg_right h3 (by norm_num)).trans h1)
    · have : (2 : ℚ) * 2 ^ 200 ≤ 2 ^ 1021 := by
        rw [show (2 : ℚ) * 2 ^ 200 = 2 ^ 201 by norm_num]
        exact pow_le_pow_right₀ (by norm_num) (by norm_num)
      exact h2.trans ((mul_le_mul_of_nonneg_left h4 (by norm_num)).trans this)
  have hfac : ∀ v, InRange s v → Rel 1 (y v) (x v * factorAt fp s q.1 q.2 a (proj q.1 v)) := fun v hv =>
    (scaled_factor hfp (h.agree v hv) (hxp v hv) (hy v hv).1 (hyreg v hv)).2
  have hF : ∀ j, InRange (projSizes q.1 s) j → Rel (f + 3) (factorAt fp s q.1 q.2 a j) (q.2 j / marginalSum s q.1 x j) := by
    intro j hj
    obtain ⟨v, hv, rfl⟩ := exists_proj hpos (loose_of_nodup hqn) hqd hj
    have h1 := (hfac v hv).symm.trans (hy v hv).2
    rw [hqs v hv, show 1 + (f + 2) = f + 3 by omega] at h1
    exact rel_cancel (hxp v hv) h1
  have hut := uu_pow_pos t
  have hbox := box_step hsW hdW hgW hqw hlt h.box hmq hF hfac (by
    rw [div_le_iff₀ hut]
    have h1 := uu_half (k := t + (f + 3) + ((f + 3) + t)) (by omega)
    rw [pow_add, pow_add uu t (f + 3), pow_add uu (f + 3) t] at h1
    have h2 := mul_le_mul_of_nonneg_left h1 (show 0 ≤ 2 * hi by linarith)
    have e : 2 * (hi / lo) * (uu ^ (f + 3) * uu ^ (f + 3)) * (uu ^ t * lo) * uu ^ t =
        2 * hi * (uu ^ t * uu ^ (f + 3) * (uu ^ (f + 3) * uu ^ t)) := by
      field_simp
    rw [e]
    linarith)
  have e1 : uu ^ 1 * (uu ^ t * lo) = uu ^ (t + 1) * lo := by ring
  have e2 : hi / uu ^ t / uu ^ 1 = hi / uu ^ (t + 1) := by rw [div_div, ← pow_add]
  rw [e1, e2] at hbox
  -- the total
  have hX : (pop : ℚ) / 2 ≤ ∑ v ∈ cells s, y v := by
    have h1 : Rel (f + 2) (∑ v ∈ cells s, y v) (∑ v ∈ cells s, qscaled s q.1 q.2 x v) :=
      Rel.sum (fun v hv => (hy v (mem_cells.mp hv)).2)
    rw [qscaled_total hpos hqn hqd hxp, htot q hqQ] at h1
    have h0 : (0 : ℚ) ≤ pop := by
      rw [← htot q hqQ]
      exact Finset.sum_nonneg (fun j hj => (hmq j (mem_cells.mp hj)).le)
    exact h1.lower (by omega) h0
  have hL0 : 0 < 2 * (hi / lo) := by positivity
  refine ⟨y, ⟨fun v hv => (hy v hv).1, hbox, fun v hv => ⟨?_, ?_⟩⟩, fun v hv => (hy v hv).2⟩
  · have hc := (box_cell hsW' hdW' hW'.pos hL0.le (mul_pos (uu_pow_pos (t + 1)) hlo) hbox hv).1
    obtain ⟨w1, w2, w3⟩ := weights_low (L := 2 * (hi / lo)) hρ hv hdW' hW'.pos hW'.part
    rw [w3] at hc
    have hlen : (A ++ q :: B).length = Q.length := by
      have := congrArg List.length hW'.fst
      simpa using this
    rw [hlen] at w2 hc
    have hut1 := uu_pow_pos (t + 1)
    have hyp : 0 < y v := (hyreg v hv).pos
    have h1 := uu_half (k := (t + 1) + (t + 1)) (by omega)
    rw [pow_add] at h1
    set T := ((A ++ q :: B).map (tot s)).prod with hT
    set L := 2 * (hi / lo) with hLdef
    set n := Q.length
    -- clear denominators
    have h0 : (0 : ℚ) ≤ pop := by
      rw [← htot q hqQ]
      exact Finset.sum_nonneg (fun j hj => (hmq j (mem_cells.mp hj)).le)
    have c1 : uu ^ (t + 1) * lo * (pop / 2) * (ρ ^ n * T) ≤ hi / uu ^ (t + 1) * y v * (L ^ n * T) := by
      refine le_trans ?_ hc
      exact mul_le_mul (mul_le_mul_of_nonneg_left hX (mul_pos hut1 hlo).le) w2 (mul_nonneg (pow_nonneg hρ _) w1.le)
        (mul_nonneg (mul_pos hut1 hlo).le (le_trans (by positivity) hX))
    have c2 : uu ^ (t + 1) * lo * (pop / 2) * ρ ^ n ≤ hi / uu ^ (t + 1) * y v * L ^ n := by
      refine le_of_mul_le_mul_right ?_ w1
      calc _ = uu ^ (t + 1) * lo * (pop / 2) * (ρ ^ n * T) := by ring
        _ ≤ _ := c1
        _ = _ := by ring
    have c3 : 1 / 2 * lo * (pop / 2) * ρ ^ n ≤ hi * y v * L ^ n := by
      have c4 := mul_le_mul_of_nonneg_left c2 hut1.le
      have e3 : uu ^ (t + 1) * (hi / uu ^ (t + 1) * y v * L ^ n) = hi * y v * L ^ n := by field_simp
      rw [e3] at c4
      refine le_trans ?_ c4
      have := mul_le_mul_of_nonneg_right h1 (show 0 ≤ lo * (pop / 2) * ρ ^ n by positivity)
      refine le_trans (le_of_eq (by ring)) (this.trans (le_of_eq (by ring)))
    refine hsize.trans ?_
    rw [div_pow, ← mul_div_assoc, div_le_iff₀ (pow_pos hL0 _)]
    refine le_of_mul_le_mul_left ?_ hhi
    refine le_trans (le_of_eq ?_) (c3.trans (le_of_eq (by ring)))
    field_simp
    ring
  · have h1 := (hy v hv).2.upper (by omega) ((hy v hv).2.nonneg (hq0 v hv).le)
    have h2 := hqle v hv
    have h4 : (2 : ℚ) * 2 ^ 200 = 2 ^ 201 := by norm_num
    linarith

omit hpos hs hd hg hm htot hf hlo hlh hρ hsize in
theorem weights_mix {W : Prob ℚ} (hW : Weights s Q ρ W) (hQ : Weights s Q ρ Q) (i : Nat) :
    Weights s Q ρ (Q.take i ++ W.drop i) where
  fst := by rw [List.map_append, List.map_take, List.map_drop, hW.fst, List.take_append_drop]
  pos := by
    intro w hw
    rcases List.mem_append.mp hw with hw | hw
    · exact hQ.pos w (List.mem_of_mem_take hw)
    · exact hW.pos w (List.mem_of_mem_drop hw)
  part := by
    intro w hw
    rcases List.mem_append.mp hw with hw | hw
    · exact hQ.part w (List.mem_of_mem_take hw)
    · exact hW.part w (List.mem_of_mem_drop hw)

theorem dinv_succ (hfp : fp.Good) {t : Nat} (hf' : f ≤ 2 ^ 50) {W : Prob ℚ} (hW : Weights s Q ρ W) (hQ : Weights s Q ρ Q)
    {i : Nat} (hiQ : i < Q.length) (ht : t + i + f + 4 ≤ 2 ^ 51) {a : List Int → Fl} {x : List Int → ℚ}
    (h : DInv s lo hi (t + i) (Q.take i ++ W.drop i) (sweep fp (numFl fp) s ((finProb Q).take i) a) x) :
    ∃ y, DInv s lo hi (t + (i + 1)) (Q.take (i + 1) ++ W.drop (i + 1)) (sweep fp (numFl fp) s ((finProb Q).take (i + 1)) a) y ∧
      ∀ v, InRange s v → Rel (f + 2) (y v) (qscaled s Q[i].1 Q[i].2 x v) := by
  have hlen : W.length = Q.length := by simpa using congrArg List.length hW.fst
  have hiW : i < W.length := by omega
  have e1 : Q.take i ++ W.drop i = Q.take i ++ W[i] :: W.drop (i + 1) := by rw [List.drop_eq_getElem_cons hiW]
  have e2 : Q.take (i + 1) ++ W.drop (i + 1) = Q.take i ++ Q[i] :: W.drop (i + 1) := by
    rw [List.take_succ_eq_append_getElem hiQ, List.append_assoc, List.singleton_append]
  have e3 : Q[i].1 = W[i].1 := by
    have h1 : (Q.map Prod.fst)[i]'(by simpa using hiQ) = (W.map Prod.fst)[i]'(by simpa using hiW) := by simp only [hW.fst]
    simpa using h1
  have w1 := weights_mix hW hQ i
  have w2 := weights_mix hW hQ (i + 1)
  rw [e1] at w1 h
  rw [e2] at w2 ⊢
  have hl : i < (finProb Q).length := by simpa [finProb] using hiQ
  have e5 := sweep_take fp (numFl fp) s (finProb Q) i hl a
  have e4 : (finProb Q)[i] = (Q[i].1, fun j => .fin (Q[i].2 j)) := by simp [finProb]
  rw [e4] at e5
  rw [e5]
  exact dinv_step hpos hs hd hg hm htot hf hlo hlh hρ hsize hfp (t := t + i) (by omega) hf' e3 (List.getElem_mem hiQ) w1 w2 h

theorem dinv_take (hfp : fp.Good) {t : Nat} (ht : t + Q.length + f + 4 ≤ 2 ^ 51) (hf' : f ≤ 2 ^ 50) {W : Prob ℚ}
    (hW : Weights s Q ρ W) (hQ : Weights s Q ρ Q) {a : List Int → Fl} {x : List Int → ℚ} (h : DInv s lo hi t W a x) :
    ∀ i ≤ Q.length, ∃ y, DInv s lo hi (t + i) (Q.take i ++ W.drop i) (sweep fp (numFl fp) s ((finProb Q).take i) a) y
  | 0, _ => ⟨x, by simpa [sweep] using h⟩
  | i + 1, hiQ => by
    obtain ⟨y, hy⟩ := dinv_take hfp ht hf' hW hQ h i (by omega)
    obtain ⟨z, hz, -⟩ := dinv_succ hpos hs hd hg hm htot hf hlo hlh hρ hsize hfp hf' hW hQ (by omega) (by omega) hy
    exact ⟨z, hz⟩

theorem dinv_run (hfp : fp.Good) (hf' : f ≤ 2 ^ 50) {W : Prob ℚ} (hW : Weights s Q ρ W) (hQ : Weights s Q ρ Q) {a : List Int → Fl}
    {x : List Int → ℚ} (h : DInv s lo hi 0 W a x) : ∀ n, n * Q.length + f + 4 ≤ 2 ^ 51 →
    ∃ y W', Weights s Q ρ W' ∧ (1 ≤ n → W' = Q) ∧ DInv s lo hi (n * Q.length) W' ((sweep fp (numFl fp) s (finProb Q))^[n] a) y
  | 0, _ => ⟨x, W, hW, by omega, by simpa using h⟩
  | n + 1, hn => by
    have e : (n + 1) * Q.length = n * Q.length + Q.length := by ring
    obtain ⟨y, W', h1, -, h2⟩ := dinv_run hfp hf' hW hQ h n (by omega)
    obtain ⟨z, hz⟩ := dinv_take hpos hs hd hg hm htot hf hlo hlh hρ hsize hfp (by omega) hf' h1 hQ h2 Q.length le_rfl
    have hlen : W'.length = Q.length := by simpa using congrArg List.length h1.fst
    rw [List.take_length, List.drop_eq_nil_of_le hlen.le, List.append_nil, ← e,
      List.take_of_length_le (by simp [finProb]), ← Function.iterate_succ_apply' (sweep fp (numFl fp) s (finProb Q))] at hz
    exact ⟨z, Q, hQ, fun _ => rfl, hz⟩

end double

end HL
