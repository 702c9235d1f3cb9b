import Verif.Proof.IPFDecomp
import Verif.Proof.QISDecomp
import Verif.Proof.QISIDisjoint

/-
C102: every fit of QISI on a problem whose marginals fit together.
-/

namespace HL
open QISI

theorem weightOn_cast (s : List Nat) (p : List Nat × (List Int → Int)) (S : List Nat) (v : List Int) :
    weightOn s (p.1, fun j => (p.2 j : ℚ)) S v = ((weightOn s p S v : Int) : ℚ) := by
  unfold weightOn
  push_cast
  rfl

theorem decomposable_rat {s : List Nat} {P : Prob Int} (h : Decomposable s P) : Decomposable s (ratProb P) := by
  intro A p B he
  unfold ratProb at he
  obtain ⟨A', B1, hP, hA, hB⟩ := List.map_eq_append_iff.mp he
  obtain ⟨p', B', hB1, hp', hB'⟩ := List.map_eq_cons_iff.mp hB
  subst hA hp' hB1
  obtain ⟨hnd, hc⟩ := h A' p' B' hP
  refine ⟨hnd, ?_⟩
  rcases hc with hc | ⟨q, hq, hall, hag⟩
  · left; simp [hc]
  · right
    refine ⟨_, List.mem_map.mpr ⟨q, hq, rfl⟩, ?_, ?_⟩
    · rintro d hd ⟨r, hr, hdr⟩
      obtain ⟨r', hr', rfl⟩ := List.mem_map.mp hr
      exact hall d hd ⟨r', hr', hdr⟩
    · intro w hw
      have := hag w hw
      show weightOn s (p'.1, fun j => (p'.2 j : ℚ)) (shared p' q) w = weightOn s (q.1, fun j => (q.2 j : ℚ)) (shared p' q) w
      rw [weightOn_cast, weightOn_cast, this]

theorem decomposable_remaining_all {s : List Nat} {P : Prob Int} (h : ProbShape s P) (ht : Decomposable s P) :
    ∀ hs : List (List Int), (∀ v ∈ hs, InRange s v) → Decomposable s (remaining hs P)
  | [], _ => by
    have : remaining [] P = P := by simp [remaining]
    rw [this]; exact ht
  | v :: hs, hr => by
    rw [← remaining_cons]
    exact decomposable_remaining (shape_remaining h hs) (decomposable_remaining_all h ht hs (fun w hw => hr w (by simp [hw])))
      (hr v (by simp))

theorem fit_decomp {s : List Nat} {Q : Prob Int} (hQ : ProbShape s Q) (hp : ProperProb s Q) {T : Int}
    (hnn : ∀ p ∈ Q, ∀ j, InRange (projSizes p.1 s) j → 0 ≤ p.2 j)
    (htot : ∀ p ∈ Q, ∑ j ∈ cells (projSizes p.1 s), p.2 j = T) (ht : Decomposable s Q) {k : ℚ} (hk : 0 < k)
    {c : List Int → Fl} (hf : Fit FP.exact s Q (fun _ => .fin k) c) : ∃ b, Agree s c b ∧ Meets s Q b := by
  have hQ' : ProbShape s (ratProb Q) := probShape_congr (fst_ratProb Q).symm hQ
  have htot' : ∀ q ∈ ratProb Q, ∑ j ∈ cells (projSizes q.1 s), q.2 j = (T : ℚ) := by
    intro q hq
    obtain ⟨p, hp, rfl⟩ := List.mem_map.mp hq
    rw [← htot p hp]; push_cast; rfl
  have hnn' : ∀ q ∈ ratProb Q, ∀ j, InRange (projSizes q.1 s) j → 0 ≤ q.2 j := by
    intro q hq j hj
    obtain ⟨p, hp, rfl⟩ := List.mem_map.mp hq
    show (0 : ℚ) ≤ (p.2 j : ℚ)
    exact_mod_cast hnn p hp j hj
  obtain ⟨h1, h2, -⟩ := sweep_decomp hQ' hnn' (decomposable_rat ht) htot' hk
  obtain ⟨n, hn, hag, hmin, hpos⟩ := fit_exact hQ hp (b := fun _ => k) (fun _ _ => rfl) hf
  have hn1 : n = 1 := by
    by_contra hne
    have := hmin 1 le_rfl (by omega)
    rw [Function.iterate_one, qmax_zero hQ' h2] at this
    norm_num at this
  subst hn1
  refine ⟨_, hag, hpos (fun _ _ => hk.le), ?_⟩
  intro p hp j hj
  exact h2 (p.1, fun j => (p.2 j : ℚ)) (List.mem_map.mpr ⟨p, hp, rfl⟩) j hj

theorem fitDone_decomp {s : List Nat} {P : Prob Int} {pop : Int} (h : ProbOK s P pop) (hp : ProperProb s P) (ht : Decomposable s P)
    {k : ℚ} (hk : 0 < k) (Q : Prob Int) (c : List Int → Fl) (hf : FitDone FP.exact s P (fun _ => .fin k) Q c) :
    ∃ b, Agree s c b ∧ Meets s Q b := by
  obtain ⟨hf, hQ⟩ := hf
  rcases hQ with rfl | ⟨hs, a, seq, v, hpl, -, hdr, -, rfl⟩
  · exact fit_decomp h.toProbShape hp h.nonneg h.total ht hk hf
  · have hsh := shape_remaining h.toProbShape (v :: hs)
    have hr' : ∀ w ∈ v :: hs, InRange s w := by
      intro w hw
      rcases List.mem_cons.mp hw with rfl | hw
      · exact hdr.inRange
      · exact hpl.range w hw
    obtain ⟨r, hr, ha⟩ := hf
    obtain ⟨pop', n, hok, -⟩ := ipf_exact (minOK_int _) hsh (properProb_remaining hp _) (reads_rat s _)
      (b := fun _ => k) (fun _ _ => rfl) hr
    refine fit_decomp hsh (properProb_remaining hp _) ?_ (remaining_total h.toProbShape h.total (hs := v :: hs) hr')
      (decomposable_remaining_all h.toProbShape ht _ hr') hk ⟨r, hr, ha⟩
    intro p hp j hj
    have := hok.nonneg p hp j hj
    simpa [numInt] using this

end HL
