import Verif.Props.QISI
import Verif.Props.QISPad
import Verif.Proof.QISIPadRun

/-
C111: categories that nobody is in make no difference to `qisi`.
-/

namespace HL
variable {e : Nat → Nat → Nat} {s s' : List Nat}

/-- exact arithmetic or that of IEEE 754 doubles -/
def Usual (fp : FP) : Prop := fp = FP.exact ∨ ∃ sqrt, fp = FP.ieee sqrt

theorem usual_good {fp : FP} (h : Usual fp) : fp.Good ∧ SignOK fp := by
  rcases h with rfl | ⟨sqrt, rfl⟩
  · exact ⟨FP.exact_good, signOK_exact⟩
  · exact ⟨FP.ieee_good sqrt, signOK_ieee sqrt⟩

theorem nonNegNan_of_le {x : Fl} (h : FP.le (.fin 0) x = true) : NonNegNan x := Or.inr h

/-- **C111**: if `qisi` returns and all the fits it performs consist of numbers, then it also returns for the problem with empty
categories and the seed with zeros there: the same people in the old categories and nobody in the new ones, likewise the expected
population bit for bit, and the same `conv`. -/
theorem C111_padded {fp : FP} (hfp : Usual fp) {lm : Libm} (he : Places e s s') {P P' : Prob Int} {pop : Int} (h : ProbOK s P pop)
    (hpop : pop < 2 ^ 52) (hnd : ∀ p ∈ P, p.1.Nodup ∧ p.1.length < s.length) (hpad : Padded e s s' P P') {sd sd' : List Int → Fl}
    (hsd : PadOf e s s' (List.range s.length) sd sd') (h0 : ∀ v, InRange s v → FP.le (.fin 0) (sd v) = true)
    (hfin : ∀ Q c, FitDone fp s P sd Q c → ∀ v, InRange s v → ∃ q, c v = .fin q)
    {skips : Int} {x : QISI} (hx : qisi fp lm s P sd skips = .ok x) :
    ∃ y f f' E E', qisi fp lm s' P' sd' skips = .ok y ∧
      x.micro.array = arr s f ∧ y.micro.array = arr s' f' ∧ PadOf e s s' (List.range s.length) f f' ∧
      x.expected = arr s E ∧ y.expected = arr s' E' ∧ PadOf e s s' (List.range s.length) E E' ∧ y.conv = x.conv :=
  qisi_pad (usual_good hfp).1 (usual_good hfp).2 he h hpop hnd hpad hsd (fun v hv => nonNegNan_of_le (h0 v hv)) hfin hx

/-- **C111**: and it returns for the one exactly if it does for the other. -/
theorem C111_returns {fp : FP} (hfp : Usual fp) {lm : Libm} (he : Places e s s') {P P' : Prob Int} {pop : Int} (h : ProbOK s P pop)
    (hpop : pop < 2 ^ 52) (hnd : ∀ p ∈ P, p.1.Nodup ∧ p.1.length < s.length) (hpad : Padded e s s' P P') {sd sd' : List Int → Fl}
    (hsd : PadOf e s s' (List.range s.length) sd sd') (h0 : ∀ v, InRange s v → FP.le (.fin 0) (sd v) = true)
    (hfin : ∀ Q c, FitDone fp s P sd Q c → ∀ v, InRange s v → ∃ q, c v = .fin q) {skips : Int} :
    (∃ y, qisi fp lm s' P' sd' skips = .ok y) ↔ ∃ x, qisi fp lm s P sd skips = .ok x := by
  constructor
  · rintro ⟨y, hy⟩
    exact qisi_unpad (usual_good hfp).1 (usual_good hfp).2 he h hpop hnd hpad hsd (fun v hv => nonNegNan_of_le (h0 v hv)) hfin hy
  · rintro ⟨x, hx⟩
    obtain ⟨y, -, -, -, -, hy, -⟩ := C111_padded hfp (lm := lm) he h hpop hnd hpad hsd h0 hfin hx
    exact ⟨y, hy⟩

theorem fits_finite {P : Prob Int} (h : ProbShape s P) (hp : ProperProb s P) (b : List Int → ℚ) {Q : Prob Int} {c : List Int → Fl}
    (hf : FitDone FP.exact s P (fun v => .fin (b v)) Q c) : ∀ v, InRange s v → ∃ q, c v = .fin q := by
  obtain ⟨hfit, hQ⟩ := hf
  have hq : ProbShape s Q ∧ ProperProb s Q := by
    rcases hQ with rfl | ⟨hs, a, seq, v, -, -, -, -, rfl⟩
    · exact ⟨h, hp⟩
    · exact ⟨shape_remaining h _, properProb_remaining hp _⟩
  obtain ⟨n, -, hag, -⟩ := fit_exact hq.1 hq.2 (fun v _ => rfl) hfit
  exact fun v hv => ⟨_, hag v hv⟩

/-- **C111** in exact arithmetic, where the fits always consist of numbers. -/
theorem C111_exact {lm : Libm} (he : Places e s s') {P P' : Prob Int} {pop : Int} (h : ProbOK s P pop)
    (hpop : pop < 2 ^ 52) (hnd : ∀ p ∈ P, p.1.Nodup ∧ p.1.length < s.length) (hpad : Padded e s s' P P') {b b' : List Int → ℚ}
    (hb : PadOf e s s' (List.range s.length) b b') (h0 : ∀ v, InRange s v → 0 ≤ b v) {skips : Int} :
    (∀ x, qisi FP.exact lm s P (fun v => .fin (b v)) skips = .ok x →
      ∃ y f f' E E', qisi FP.exact lm s' P' (fun v => .fin (b' v)) skips = .ok y ∧
        x.micro.array = arr s f ∧ y.micro.array = arr s' f' ∧ PadOf e s s' (List.range s.length) f f' ∧
        x.expected = arr s E ∧ y.expected = arr s' E' ∧ PadOf e s s' (List.range s.length) E E' ∧ y.conv = x.conv) ∧
    ((∃ y, qisi FP.exact lm s' P' (fun v => .fin (b' v)) skips = .ok y) ↔ ∃ x, qisi FP.exact lm s P (fun v => .fin (b v)) skips = .ok x) := by
  have hsd : PadOf e s s' (List.range s.length) (fun v => Fl.fin (b v)) (fun v => Fl.fin (b' v)) :=
    ⟨fun j hj => congrArg Fl.fin (hb.1 j hj), fun j' hj' hno => congrArg Fl.fin (hb.2 j' hj' hno)⟩
  have h0' : ∀ v, InRange s v → FP.le (.fin 0) (Fl.fin (b v)) = true := fun v hv => by simpa [FP.le] using h0 v hv
  have hfin := fun Q c => fits_finite h.toProbShape (padded_proper he hnd hpad).1 b (Q := Q) (c := c)
  exact ⟨fun x hx => C111_padded (.inl rfl) he h hpop hnd hpad hsd h0' hfin hx,
    C111_returns (.inl rfl) he h hpop hnd hpad hsd h0' hfin⟩

/-- a seed of ones, with zeros in the empty category of `gapProb` -/
def gapSeed (v : List Int) : ℚ := if v.getD 0 0 = 1 then 0 else 1

/-- The hypotheses hold, `qisi` returns for both, and nobody is in the empty category. -/
example (lm : Libm) : ProbOK [2, 2] tightProb 5 ∧ (∀ p ∈ tightProb, p.1.Nodup ∧ p.1.length < 2) ∧ Places gapAt [2, 2] [3, 2] ∧
    Padded gapAt [2, 2] [3, 2] tightProb gapProb ∧ PadOf gapAt [2, 2] [3, 2] (List.range 2) (fun _ => (1 : ℚ)) gapSeed ∧
    ∃ x y f', qisi FP.exact lm [2, 2] tightProb (fun _ => .fin 1) 0 = .ok x ∧
      qisi FP.exact lm [3, 2] gapProb (fun v => .fin (gapSeed v)) 0 = .ok y ∧ y.conv = true ∧
      y.micro.array = arr [3, 2] f' ∧ f' [1, 0] = 0 ∧ f' [1, 1] = 0 := by
  have h0 : ProbOK [2, 2] tightProb 5 := ProbCheck.ok (by decide +kernel)
  have hnd : ∀ p ∈ tightProb, p.1.Nodup ∧ p.1.length < 2 := by decide
  have mem : ∀ {t : List Nat} {j : List Int}, InRange t j → j ∈ allIdx t := fun hj => mem_allIdx.mpr hj
  have hb : PadOf gapAt [2, 2] [3, 2] (List.range 2) (fun _ => (1 : ℚ)) gapSeed := by
    constructor
    · have : ∀ j ∈ allIdx (projSizes (List.range 2) [2, 2]), gapSeed (place gapAt (List.range 2) j) = 1 := by decide +kernel
      exact fun j hj => this j (mem hj)
    · have : ∀ j' ∈ allIdx (projSizes (List.range 2) [3, 2]), (∀ j ∈ allIdx (projSizes (List.range 2) [2, 2]), place gapAt (List.range 2) j ≠ j') →
          gapSeed j' = 0 := by decide +kernel
      exact fun j' hj' hno => this j' (mem hj') (fun j hj => hno j (mem_allIdx.mp hj))
  obtain ⟨x, hx, hc⟩ := C44_disjoint lm h0 (by norm_num) (by decide) (by simp [tightProb]) (k := 1) one_pos (skips := 0) (by norm_num) (by norm_num)
  obtain ⟨y, f, f', E, E', hy, -, hf', h3, -, -, -, h4⟩ := (C111_exact (lm := lm) gap_places h0 (by norm_num) hnd gap_padded hb
    (fun _ _ => zero_le_one) (skips := 0)).1 x hx
  have hz : ∀ b ∈ [(0 : Int), 1], f' [1, b] = 0 := by
    intro b hb
    refine h3.2 [1, b] ?_ ?_
    · simp only [List.mem_cons, List.not_mem_nil, or_false] at hb
      rcases hb with rfl | rfl <;> decide
    · intro j hj
      have : ∀ j ∈ allIdx (projSizes (List.range 2) [2, 2]), ∀ b ∈ [(0 : Int), 1], place gapAt (List.range 2) j ≠ [1, b] := by
        decide +kernel
      exact this j (mem hj) b hb
  exact ⟨h0, hnd, gap_places, gap_padded, hb, x, y, f', hx, hy, by rw [h4, hc], hf', hz 0 (by simp), hz 1 (by simp)⟩

end HL
