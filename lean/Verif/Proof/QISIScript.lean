import Verif.Proof.QISIDisjoint
import Verif.Proof.QISISolve

/-
Runs of QISI whose draws and working tables are known.
-/

namespace HL
open QISI
variable {fp : FP}

/-- a fit that stops after one iteration -/
theorem fit_once {s : List Nat} {Q : Prob Int} (hQ : ProbShape s Q) (hp : ProperProb s Q) {sd c c' : List Int → Fl}
    (hcv : convAt fp (numInt fp) s Q (sweep fp (numInt fp) s Q sd))
    (hsw : ∀ v ∈ allIdx s, sweep fp (numInt fp) s Q sd v = c' v) (hf : Fit fp s Q sd c) : ∀ v, InRange s v → c v = c' v := by
  obtain ⟨r, hr, ha⟩ := hf
  obtain ⟨pop, n, -, h1, -, -, h4, rfl⟩ := ipf_run fp _ (minOK_int fp) hQ hp sd hr
  have hn : n = 1 := by
    by_contra hne
    exact h4 1 le_rfl (by omega) hcv
  subst hn
  have ha' : arr s ((sweep fp (numInt fp) s Q)^[1] sd) = arr s c := ha
  intro v hv
  rw [← arr_inj ha' v hv]
  exact hsw v (mem_allIdx.mpr hv)

/-- the individuals in the order in which they are placed, and the working table after each number of them -/
structure Script (fp : FP) (s : List Nat) (P : Prob Int) (sd : List Int → Fl) (vs : List (List Int)) (T : Nat → List Int → Fl) : Prop where
  first : ∀ c, Fit fp s P sd c → ∀ v, InRange s v → c v = T 0 v
  draw : ∀ n < vs.length, ∀ seq, PointAt s.length (n + 1) seq → Drawn fp seq s (T n) (vs.getD n [])
  keep : ∀ n < vs.length, FP.lt (fp.sub (T n (vs.getD n [])) (.fin 1)) (.fin 0) = false → ∀ v, InRange s v →
    Function.update (T n) (vs.getD n []) (fp.sub (T n (vs.getD n [])) (.fin 1)) v = T (n + 1) v
  refit : ∀ n < vs.length, FP.lt (fp.sub (T n (vs.getD n [])) (.fin 1)) (.fin 0) = true →
    ∀ c, Fit fp s (remaining (vs.take (n + 1)).reverse P) sd c → ∀ v, InRange s v → c v = T (n + 1) v
  rest : ∀ n < vs.length, ∀ p ∈ remaining (vs.take (n + 1)).reverse P, ∀ j ∈ allIdx (projSizes p.1 s), 0 ≤ p.2 j

theorem take_succ_reverse {vs : List (List Int)} {n : Nat} (hn : n < vs.length) :
    (vs.take (n + 1)).reverse = vs.getD n [] :: (vs.take n).reverse := by
  rw [List.take_succ_eq_append_getElem hn, List.reverse_append, List.getD_eq_getElem _ _ hn]
  rfl

theorem script_placed {s : List Nat} {P : Prob Int} {sd : List Int → Fl} {vs : List (List Int)} {T : Nat → List Int → Fl}
    (h : Script fp s P sd vs T) {hs : List (List Int)} {a : List Int → Fl} (hp : Placed fp s P sd hs a) :
    hs.length ≤ vs.length → hs = (vs.take hs.length).reverse ∧ ∀ v, InRange s v → a v = T hs.length v := by
  induction hp with
  | start c hc => exact fun _ => ⟨by simp, h.first c hc⟩
  | keep hs a seq v _ hpt hd hlt ih =>
    intro hl
    simp only [List.length_cons] at hl ⊢
    obtain ⟨h1, h2⟩ := ih (by omega)
    have hd' := drawn_congr h2 hd
    obtain rfl := drawn_unique hd' (h.draw hs.length (by omega) seq hpt)
    rw [h2 _ hd.inRange] at hlt ⊢
    refine ⟨by rw [take_succ_reverse (by omega), ← h1], fun w hw => ?_⟩
    rw [← h.keep hs.length (by omega) hlt w hw]
    by_cases hwv : w = vs.getD hs.length []
    · rw [hwv, Function.update_self, Function.update_self]
    · rw [Function.update_of_ne hwv, Function.update_of_ne hwv, h2 w hw]
  | refit hs a seq v c _ hpt hd hlt hf ih =>
    intro hl
    simp only [List.length_cons] at hl ⊢
    obtain ⟨h1, h2⟩ := ih (by omega)
    have hd' := drawn_congr h2 hd
    obtain rfl := drawn_unique hd' (h.draw hs.length (by omega) seq hpt)
    rw [h2 _ hd.inRange] at hlt
    have he : vs.getD hs.length [] :: hs = (vs.take (hs.length + 1)).reverse := by
      rw [take_succ_reverse (by omega), ← h1]
    exact ⟨he, h.refit hs.length (by omega) hlt c (by rw [← he]; exact hf)⟩

theorem script_individuals (hfp : fp.Good) {s : List Nat} {P : Prob Int} {pop : Int} (h : ProbOK s P pop) (hpop : pop ≤ 2 ^ 32 - 1)
    (hp : ProperProb s P) {sd : List Int → Fl} {vs : List (List Int)} {T : Nat → List Int → Fl} (hsc : Script fp s P sd vs T)
    (hvs : (vs.length : Int) = pop) :
    ∀ (k : Nat) {hs : List (List Int)} {a : List Int → Fl} {t : Loop}, LoopAt fp s P pop sd hs a t → (hs.length + k : Int) ≤ pop →
    ∃ t', individuals false fp (arr s sd) (mapsOf s P) k t = .ok t'
  | 0, hs, a, t, _, _ => ⟨t, rfl⟩
  | k + 1, hs, a, t, ht, hl => by
    unfold individuals
    push_cast at hl
    obtain ⟨h1, h2⟩ := script_placed hsc ht.placed (by omega)
    rcases individual_cases' hfp h (by omega) hp ht (by omega) with
      ⟨hb, -⟩ | ⟨seq, hpt, ⟨hno, -⟩ | ⟨v, hd, ⟨hlt, hov, -⟩ | ⟨a1, t1, hi, h3, -⟩⟩⟩
    · omega
    · exact absurd ⟨_, drawn_congr (fun v hv => (h2 v hv).symm) (hsc.draw hs.length (by omega) seq hpt)⟩ hno
    · exfalso
      obtain rfl := drawn_unique (drawn_congr h2 hd) (hsc.draw hs.length (by omega) seq hpt)
      obtain ⟨p, hpp, j, hj, hneg⟩ := hov
      have he : vs.getD hs.length [] :: hs = (vs.take (hs.length + 1)).reverse := by
        rw [take_succ_reverse (by omega), ← h1]
      rw [he] at hpp
      have := hsc.rest hs.length (by omega) p hpp j (mem_allIdx.mpr hj)
      omega
    · rw [hi]
      simp only [Out.ok_bind]
      exact script_individuals hfp h hpop hp hsc hvs k h3 (by simp; omega)

/-- a scripted run -/
theorem qisi_script (hfp : fp.Good) (lm : Libm) {s : List Nat} {P : Prob Int} {pop : Int} (h : ProbOK s P pop) (hpop : pop ≤ 2 ^ 32 - 1)
    (hp : ProperProb s P) (hd : s.length ≤ 1111) {sd : List Int → Fl} {skips : Int} (h0 : 0 ≤ skips) (h1 : skips ≤ 2 ^ 31)
    {vs : List (List Int)} {T : Nat → List Int → Fl} (hsc : Script fp s P sd vs T) (hvs : (vs.length : Int) = pop) :
    ∃ x, QISI.run false fp lm (indicesOf P) (marginalsOf s P) (arr s sd) skips = .ok x ∧
      x.micro.array = arr s (fun v => (vs.count v : Int)) ∧ (x.conv = true ↔ Unspent P vs.reverse) := by
  rcases qisi_run_eq hfp lm h (by omega) (arr s sd) skips with ⟨hb, -⟩ | ⟨-, hb, -⟩ | ⟨c, x0, -, -, hx, -, he⟩
  · omega
  · omega
  · rw [he]
    obtain ⟨c, t, hc, ht, g1, g2, -, he⟩ := qisi_solve_eq hfp lm h (by omega) hp hd sd hx false
    rw [he]
    have hp0 := h.pop_nonneg
    obtain ⟨t', ht'⟩ := script_individuals hfp h hpop hp hsc hvs pop.toNat ht (by simp; omega)
    rcases individuals_cases' hfp h (by omega) hp pop.toNat ht (by simp; omega) (by simp [g2, Unspent]) with
      ⟨e, hi⟩ | ⟨ws, a, t'', k1, k2, k3, k4, k5, k6⟩
    · rw [hi] at ht'; cases ht'
    · rw [List.append_nil] at k3 k6
      rw [k2]
      simp only [Out.ok_bind]
      obtain ⟨x', hx', hs, -⟩ := qisi_finish lm h hc k1 k3 (k4.trans g1) k6
      have hws : ws = vs.reverse := by
        obtain ⟨q, -⟩ := script_placed hsc k3.placed (by omega)
        rw [q, List.take_of_length_le (by omega)]
      refine ⟨x', hx', ?_, by rw [hs.conv, hws]⟩
      rw [hs.at_.micro]
      show arr s (fun v => (ws.count v : Int)) = _
      rw [hws]
      simp

end HL
