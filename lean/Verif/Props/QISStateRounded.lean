import Verif.Props.QISState
import Verif.Props.QISRounded
import Verif.Proof.QISStateRound

/-
C86 in binary64: when "pick failed" is raised, and when not.
-/

namespace HL
variable {fp : FP}

/-- the states after placing `hs`, in rounded arithmetic -/
def StatesNear (s : List Nat) (P : Prob Int) (pop : Int) (hs : List (List Int)) (a : List Int → Fl) : Prop :=
  ProbOK s (remaining hs P) (pop - hs.length) ∧ (1 ≤ pop → ∀ w, InRange s w →
    ∃ x, a w = .fin x ∧ Rel (P.length + 2 * P.length * hs.length) x (productAt (remaining hs P) w))

theorem near_init (hfp : fp.Good) {s : List Nat} {P : Prob Int} {pop : Int} (h : ProbOK s P pop) (hpop : pop < 2 ^ 52)
    (hbig : (pop : ℚ) ^ P.length ≤ bigQ) (hsz : P.length ≤ 2 ^ 52) : StatesNear s P pop [] (stateVal fp P) := by
  have e0 : remaining [] P = P := by simp [remaining]
  refine ⟨by rw [e0]; simpa using h, fun h1 w hw => ?_⟩
  obtain ⟨b, hb1, hb2, -⟩ := stateVal_fold hfp h1 hpop w P 0 1 1 (fun p hp => by
    have := inRange_proj (h.dims p hp).2 hw
    exact ⟨h.nonneg p hp _ this, entry_le h hp this⟩) (by omega) (Rel.refl 1) (Or.inr le_rfl) (by rwa [one_mul])
  rw [one_mul, Nat.zero_add] at hb2
  exact ⟨b, hb1, by rw [e0]; simpa using hb2⟩

theorem near_step (hfp : fp.Good) {s : List Nat} {P : Prob Int} {pop : Int} (hpop : pop < 2 ^ 52) (hbig : (pop : ℚ) ^ P.length ≤ bigQ)
    (hsz : P.length + 2 * P.length * pop.toNat ≤ 2 ^ 52) {hs : List (List Int)} {v : List Int} {a : List Int → Fl} (hv : InRange s v)
    (hpos : ∀ p ∈ remaining hs P, 0 < p.2 (proj p.1 v)) (h : StatesNear s P pop hs a) :
    StatesNear s P pop (v :: hs) (shrunk fp v (remaining (v :: hs) P) a) := by
  obtain ⟨hok, hn⟩ := h
  have hok' : ProbOK s (remaining (v :: hs) P) (pop - (v :: hs).length) := by
    rw [← remaining_cons]
    refine probOK_remaining (n := pop - (v :: hs).length) ?_ hv hpos
    rw [show pop - ((v :: hs).length : Int) + 1 = pop - hs.length by rw [List.length_cons]; push_cast; ring]
    exact hok
  refine ⟨hok', fun h1 w hw => ?_⟩
  have hlen := hok'.pop_nonneg
  rw [List.length_cons] at hlen
  obtain ⟨x, hx, hr⟩ := hn h1 w hw
  have hb : ∀ u, InRange s u → ∀ p ∈ remaining hs P, 0 ≤ p.2 (proj p.1 u) ∧ p.2 (proj p.1 u) ≤ pop := by
    intro u hu p hp
    have h2 := inRange_proj (hok.dims p hp).2 hu
    have h3 := entry_le hok hp h2
    exact ⟨hok.nonneg p hp _ h2, by omega⟩
  have hlt : hs.length + 1 ≤ pop.toNat := by omega
  have hmul : 2 * P.length * (hs.length + 1) ≤ 2 * P.length * pop.toNat := Nat.mul_le_mul_left _ hlt
  have hexp : 2 * P.length * (hs.length + 1) = 2 * P.length * hs.length + 2 * P.length := by ring
  obtain ⟨z, hz1, hz2⟩ := shrunk_rel hfp (hs := hs) (v := v) (w := w) hpop h1 P (P.length + 2 * P.length * hs.length) 1 x
    (fun p hp => ⟨hpos p hp, (hb v hv p hp).2, hb w hw p hp⟩) (by omega) (Or.inr le_rfl) (by rwa [one_mul]) (by rwa [one_mul])
  refine ⟨z, ?_, ?_⟩
  · unfold shrunk
    rw [hx]
    exact hz1
  · rw [one_mul] at hz2
    rw [List.length_cons, hexp, ← Nat.add_assoc]
    exact hz2

/-- If no cell can be drawn there is none left. -/
theorem near_drawn (hfp : fp.Good) {s : List Nat} {P : Prob Int} {pop : Int} (hbig : (pop : ℚ) ^ P.length * prodSizes s ≤ bigQ)
    (hsz : P.length + 2 * P.length * pop.toNat + 2 * prodSizes s ≤ 2 ^ 52) {hs : List (List Int)} {a : List Int → Fl} (h1 : 1 ≤ pop)
    (h : StatesNear s P pop hs a) {seq : List U32} (hno : ¬ ∃ v, Drawn fp seq s a v) : Stuck s P hs := by
  obtain ⟨hok, hn⟩ := h
  intro w hw
  by_contra hne
  push Not at hne
  have hlen := hok.pop_nonneg
  have hmul : 2 * P.length * hs.length ≤ 2 * P.length * pop.toNat := Nat.mul_le_mul_left _ (by omega)
  have hb : ∀ u, InRange s u → ∀ p ∈ remaining hs P, 0 ≤ p.2 (proj p.1 u) ∧ p.2 (proj p.1 u) ≤ pop := by
    intro u hu p hp
    have h2 := inRange_proj (hok.dims p hp).2 hu
    have h3 := entry_le hok hp h2
    exact ⟨hok.nonneg p hp _ h2, by omega⟩
  have hl : (remaining hs P).length = P.length := by simp [remaining]
  have htwo := hok.two
  obtain ⟨v, hv, -⟩ := about_drawn hfp (seq := seq) (s.length - 1) s (P.length + 2 * P.length * hs.length) ((pop : ℚ) ^ P.length)
    (productAt (remaining hs P)) a (by omega) (fun u hu => ⟨hn h1 u hu, productAt_zero_or_one u _ fun p hp => (hb u hu p hp).1, by
      have := (productAt_le h1 u (remaining hs P) (hb u hu)).2
      rwa [hl] at this⟩) ⟨w, hw, by
      rw [Ne, productAt_eq_zero]
      rintro ⟨p, hp, h0⟩
      obtain ⟨q, hq, rfl⟩ := List.mem_map.mp hp
      have := hne q hq
      simp only [] at h0
      omega⟩ (by omega) (by rw [mul_comm]; exact hbig)
  exact hno ⟨v, hv⟩

/-- **C86** in binary64: as in exact arithmetic, "pick failed" says that the individuals placed so far exceed no marginal and are fewer
than the population, but that there is no cell to place another in without exceeding one; when the population to the power of the number
of marginals, times the number of cells, is at most `2^800`, and the population times twice the number of marginals, with twice the number
of cells, at most `2^52`. -/
theorem C86_stuck_rounded (hsg : fp = FP.exact ∨ ∃ sqrt, fp = FP.ieee sqrt) (lm : Libm) {s : List Nat} {P : Prob Int} {pop : Int}
    (h : ProbOK s P pop) (hpop : pop < 2 ^ 52) (hn : ∀ p ∈ P, p.1.Nodup ∧ p.1.length < s.length)
    (hbig : (pop : ℚ) ^ P.length * prodSizes s ≤ 2 ^ 800) (hsz : P.length + 2 * P.length * pop.toNat + 2 * prodSizes s ≤ 2 ^ 52)
    {skips : Int} (hx : qisState fp lm s P skips = .thrown .pickFailed) :
    ∃ hs : List (List Int), (hs.length : Int) < pop ∧ (∀ v ∈ hs, InRange s v) ∧
      (∀ p ∈ P, ∀ j, InRange (projSizes p.1 s) j → (hs.countP (fun v => proj p.1 v = j) : Int) ≤ p.2 j) ∧ Stuck s P hs := by
  have hfp : fp.Good := by
    rcases hsg with rfl | ⟨sqrt, rfl⟩
    · exact FP.exact_good
    · exact FP.ieee_good sqrt
  have hs : SignOK fp := by
    rcases hsg with rfl | ⟨sqrt, rfl⟩
    · exact signOK_exact
    · exact signOK_ieee sqrt
  rw [← bigQ_eq] at hbig
  have hbig' : (pop : ℚ) ^ P.length ≤ bigQ := by
    refine le_trans ?_ hbig
    have h0 : (0 : ℚ) ≤ (pop : ℚ) ^ P.length := pow_nonneg (by exact_mod_cast h.pop_nonneg) _
    have h1 : (1 : ℚ) ≤ prodSizes s := by exact_mod_cast prodSizes_pos h.pos
    nlinarith
  unfold qisState at hx
  rcases runP_cases hfp hs lm h hpop hn skips
      (J := fun hs a => StatesNear s P pop hs a ∧ ∀ v ∈ hs, InRange s v)
      ⟨near_init hfp h hpop hbig' (by omega), by simp⟩ (by
        rintro hs v a hv hpos ⟨h1, h2⟩
        refine ⟨near_step hfp hpop hbig' (by omega) hv hpos h1, ?_⟩
        intro w hw
        rcases List.mem_cons.mp hw with rfl | hw
        · exact hv
        · exact h2 w hw) with
    ⟨-, e, h1, h2⟩ | ⟨-, -, h1⟩ | ⟨c, -, -, ⟨hs, a, j, seq, g1, g2, ⟨g3, g4⟩, g5, -⟩ | ⟨-, h1⟩ | ⟨vs, x', -, h1, -⟩⟩
  · rw [h1] at hx
    injection hx with hx
    rw [hx] at h2
    simp at h2
  · rw [h1] at hx; cases hx
  · refine ⟨hs, by omega, g4, ?_, near_drawn hfp hbig hsz (by omega) g3 g5⟩
    intro p hp j hj
    have := g2.nonneg _ (List.mem_map.mpr ⟨p, hp, rfl⟩) j hj
    simp only [] at this
    omega
  · rw [h1] at hx; cases hx
  · rw [h1] at hx; cases hx

/-- **C86** in binary64: if the marginals fit together, in whatever order they are given, this variant of `qis` returns the population, under
the same conditions on its size and the size of the table, when the Sobol sequence is long enough. -/
theorem C86_returns_rounded (hsg : fp = FP.exact ∨ ∃ sqrt, fp = FP.ieee sqrt) (lm : Libm) {s : List Nat} {P Q : Prob Int} {pop : Int}
    (h : ProbOK s P pop) (hpop : pop < 2 ^ 52) (hn : ∀ p ∈ P, p.1.Nodup ∧ p.1.length < s.length)
    (hbig : (pop : ℚ) ^ P.length * prodSizes s ≤ 2 ^ 800) (hsz : P.length + 2 * P.length * pop.toNat + 2 * prodSizes s ≤ 2 ^ 52)
    (hq : P.Perm Q) (ht : Decomposable s Q) (hd : s.length ≤ 1111) {skips : Int} (h0 : 0 ≤ skips) (h1 : skips ≤ 2 ^ 31) :
    ∃ c : Nat, (skips ≤ 2 → c = 1) ∧ (2 ≤ skips → LargestPow2Below skips.toNat c) ∧
      (c + pop ≤ 2 ^ 32 - 1 → ∃ x f, qisState fp lm s P skips = .ok x ∧ x.conv = true ∧ x.micro.array = arr s f ∧
        (∀ v, InRange s v → 0 ≤ f v) ∧ ∀ p ∈ P, ∀ j, InRange (projSizes p.1 s) j → marginalSum s p.1 f j = p.2 j) ∧
      (2 ^ 32 - 1 < c + pop → qisState fp lm s P skips = .thrown .sobolExhausted) := by
  have hfp : fp.Good := by
    rcases hsg with rfl | ⟨sqrt, rfl⟩
    · exact FP.exact_good
    · exact FP.ieee_good sqrt
  have hs : SignOK fp := by
    rcases hsg with rfl | ⟨sqrt, rfl⟩
    · exact signOK_exact
    · exact signOK_ieee sqrt
  rw [← bigQ_eq] at hbig
  have hbig' : (pop : ℚ) ^ P.length ≤ bigQ := by
    refine le_trans ?_ hbig
    have h0 : (0 : ℚ) ≤ (pop : ℚ) ^ P.length := pow_nonneg (by exact_mod_cast h.pop_nonneg) _
    have h1 : (1 : ℚ) ≤ prodSizes s := by exact_mod_cast prodSizes_pos h.pos
    nlinarith
  have e0 : ∀ P : Prob Int, remaining [] P = P := fun P => by simp [remaining]
  unfold qisState
  rcases runP_cases hfp hs lm h hpop hn skips
      (J := fun hs a => StatesNear s P pop hs a ∧ Decomposable s (remaining hs Q))
      ⟨near_init hfp h hpop hbig' (by omega), by rw [e0]; exact ht⟩ (by
        rintro hs v a hv hpos ⟨h1, h2⟩
        refine ⟨near_step hfp hpop hbig' (by omega) hv hpos h1, ?_⟩
        have := decomposable_remaining (shape_remaining (probOK_perm hq h).toProbShape hs) h2 hv
        rw [remaining_cons] at this
        exact this) with
    ⟨g, -⟩ | ⟨-, g, -⟩ | ⟨c, -, hc, ⟨hs, a, j, seq, g1, g2, ⟨g3, g4⟩, g5, -⟩ | ⟨g1, g⟩ | ⟨vs, x, g1, g, g2⟩⟩
  · omega
  · omega
  · exfalso
    have hperm : (remaining hs P).Perm (remaining hs Q) := hq.map _
    obtain ⟨v, hv, hpos⟩ := decomp_support (probOK_perm hperm g2) (by push_cast; omega) (by push_cast; omega) g4
    obtain ⟨p, hp, hz⟩ := near_drawn hfp hbig hsz (by omega) g3 g5 v hv
    have := hpos _ (hperm.mem_iff.mp (List.mem_map.mpr ⟨p, hp, rfl⟩))
    simp only [] at this
    omega
  all_goals
    have hk : (skips % 2 ^ 32).toNat = skips.toNat := by omega
    obtain ⟨c1, c2⟩ := skipped_spec hc
    rw [hk] at c1 c2
  · exact ⟨c, fun h => c1 (by omega), fun h => c2 (by omega), fun hn => by omega, fun _ => g⟩
  · exact ⟨c, fun h => c1 (by omega), fun h => c2 (by omega), fun _ => ⟨x, _, g, g2.conv, g2.array, fun v _ => by positivity, g2.met⟩,
      fun hn => by omega⟩

/-! ### Products that overflow -/

/-- nothing can be drawn from a table that is infinite everywhere -/
theorem not_drawn_inf (hfp : fp.Good) {seq : List U32} {s : List Nat} {a : List Int → Fl} (h : ∀ v, InRange s v → a v = .pinf) {v : List Int}
    (hd : Drawn fp seq s a v) : False := by
  have top : ∀ (l : List Fl), (∀ x ∈ l, x = .pinf) → l.foldl fp.add .pinf = .pinf := by
    intro l
    induction l with
    | nil => intro _; rfl
    | cons x l ih =>
      intro hx
      rw [List.foldl_cons, hx x (by simp)]
      exact ih fun y hy => hx y (by simp [hy])
  have all : ∀ (l : List Fl), l ≠ [] → (∀ x ∈ l, x = .pinf) → l.foldl fp.add (.fin 0) = .pinf := by
    intro l hl hx
    match l, hl with
    | x :: l, _ =>
      rw [List.foldl_cons, hx x (by simp)]
      exact top l fun y hy => hx y (by simp [hy])
  have hr := hd.inRange
  cases hd with
  | one n a i hi hp =>
    rw [C59_negation_infinite hfp _ (all _ (by simp; omega) (by
      intro x hx
      obtain ⟨j, hj, rfl⟩ := List.mem_map.mp hx
      exact h _ (.cons ⟨by positivity, by exact_mod_cast List.mem_range.mp hj⟩ .nil))) _] at hp
    cases hp
  | snoc t n a i w ht hi hp hw =>
    have hne : allIdx t ≠ [] := by
      intro h0
      have := mem_allIdx.mpr hw.inRange
      rw [h0] at this
      cases this
    rw [C59_negation_infinite hfp _ (all _ (by simp [lastSumsF]; omega) (by
      intro x hx
      obtain ⟨j, hj, rfl⟩ := List.mem_map.mp hx
      have := all ((allIdx t).map fun v => a (v ++ [(j : Int)])) (by simpa using hne) (by
        intro y hy
        obtain ⟨u, hu, rfl⟩ := List.mem_map.mp hy
        exact h _ (inRange_snoc (mem_allIdx.mp hu) (by positivity) (by exact_mod_cast List.mem_range.mp hj)))
      rw [List.foldl_map] at this
      exact this)) _] at hp
    cases hp

/-- **C86 fails** in binary64 without the condition on the product: when the product of the marginals is `2^1025` or more in every cell, this
variant of `qis` raises "pick failed" on the first individual, although every cell is free and the marginals may well fit together. -/
theorem C86_negation_overflow (sqrt : Fl → Fl) (lm : Libm) {s : List Nat} {P : Prob Int} {pop : Int} (h : ProbOK s P pop)
    (hpop : pop < 2 ^ 52) (hl : P.length ≤ 2 ^ 51) (hp : ∀ v, InRange s v → ∀ p ∈ P, 0 < p.2 (proj p.1 v))
    (hbig : ∀ v, InRange s v → 2 ^ 1025 ≤ productAt P v) (hd : s.length ≤ 1111) {skips : Int} (h0 : 0 ≤ skips) (h1 : skips ≤ 2 ^ 31) :
    qisState (FP.ieee sqrt) lm s P skips = .thrown .pickFailed := by
  have hfp := FP.ieee_good sqrt
  have hpos : 0 < pop := by
    have hl := h.lists
    obtain ⟨p, hp'⟩ := List.exists_mem_of_ne_nil P (by rintro rfl; simp at hl)
    obtain ⟨v, hv⟩ := exists_inRange h.pos
    exact (hp v hv p hp').trans_le (entry_le h hp' (inRange_proj (h.dims p hp').2 hv))
  unfold qisState
  rcases runP_eq hfp lm h hpop skips with ⟨g, -⟩ | ⟨-, g, -⟩ | ⟨c, x1, -, -, hc, hx, -, -, ha, hrun⟩
  · omega
  · omega
  · rw [hrun]
    obtain ⟨k, hk⟩ : ∃ k, pop.toNat = k + 1 := ⟨pop.toNat - 1, by omega⟩
    rw [hk]
    unfold QISState.individuals
    rcases individual_drawn (fp := FP.ieee sqrt) h.toProbShape hx ha (idx := zerosI s.length) (by simp [zerosI]) with
      ⟨g1, -⟩ | ⟨-, seq, -, ⟨-, g2⟩ | ⟨v, -, g2, -⟩⟩
    · omega
    · rw [g2]; rfl
    · exact (not_drawn_inf hfp (fun v hv => stateVal_overflow sqrt h hpop hl hv (hp v hv) (hbig v hv)) g2).elim

/-! ### The hypotheses are met -/

/-- 1025 marginals of two people each, in a table of one cell. -/
example (sqrt : Fl → Fl) (lm : Libm) : qisState (FP.ieee sqrt) lm [1, 1] manyProb 0 = .thrown .pickFailed :=
  C86_negation_overflow sqrt lm manyProb_ok (by norm_num) (by simp [manyProb])
    (fun v _ p hp => by rw [(manyProb_get hp).2]; norm_num) (fun v hv => by
      have : v = [0, 0] := by
        have hm := mem_allIdx.mpr hv
        rw [show allIdx [1, 1] = [[0, 0]] from rfl] at hm
        exact List.mem_singleton.mp hm
      rw [this]
      exact manyProb_big.ge) (by simp) le_rfl (by norm_num)

/-- In binary64, four attributes, two overlapping marginals. -/
example (sqrt : Fl → Fl) (lm : Libm) : ∃ x, qisState (FP.ieee sqrt) lm [2, 2, 2, 2] bandProb 0 = .ok x ∧ x.conv = true := by
  obtain ⟨c, hc, -, h, -⟩ := C86_returns_rounded (Or.inr ⟨sqrt, rfl⟩) lm bandProb_ok (by norm_num) bandProb_proper
    (by
      have h1 : (14 : ℚ) ^ bandProb.length * prodSizes [2, 2, 2, 2] ≤ 2 ^ 20 := by norm_num [bandProb, prodSizes]
      have h2 : (2 : ℚ) ^ 20 ≤ 2 ^ 800 := pow_le_pow_right₀ (by norm_num) (by norm_num)
      exact le_trans (by exact_mod_cast h1) h2) (by decide) (.refl _) bandProb_decomposable (by simp) (skips := 0) le_rfl (by norm_num)
  obtain ⟨x, f, hx, hconv, -⟩ := h (by rw [hc (by norm_num)]; norm_num)
  exact ⟨x, hx, hconv⟩

end HL
