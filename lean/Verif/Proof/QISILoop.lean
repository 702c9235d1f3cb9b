import Verif.Proof.QISIDraw
import Verif.Proof.QISSolve
import Verif.Proof.QISTree
import Verif.Proof.QISAxes

/-
The loop of QISI::solve.
-/

namespace HL
open QISI
variable {fp : FP}

theorem Placed.range {s : List Nat} {P : Prob Int} {sd : List Int → Fl} {hs : List (List Int)} {a : List Int → Fl}
    (h : Placed fp s P sd hs a) : ∀ v ∈ hs, InRange s v := by
  induction h with
  | start => simp
  | keep hs a seq v _ _ hd _ ih =>
    intro w hw
    rcases List.mem_cons.mp hw with rfl | hw
    · exact hd.inRange
    · exact ih w hw
  | refit hs a seq v c _ _ hd _ _ ih =>
    intro w hw
    rcases List.mem_cons.mp hw with rfl | hw
    · exact hd.inRange
    · exact ih w hw

theorem properProb_remaining {s : List Nat} {P : Prob Int} (h : ProperProb s P) (hs : List (List Int)) :
    ProperProb s (remaining hs P) := by
  intro p hp
  obtain ⟨q, hq, rfl⟩ := List.mem_map.mp hp
  exact h q hq

/-- what is left of the marginals has a negative entry -/
def Overdrawn (s : List Nat) (P : Prob Int) (hs : List (List Int)) : Prop :=
  ∃ p ∈ remaining hs P, ∃ j, InRange (projSizes p.1 s) j ∧ p.2 j < 0

theorem remaining_total {s : List Nat} {P : Prob Int} (h : ProbShape s P) {tot : Int}
    (ht : ∀ p ∈ P, ∑ j ∈ cells (projSizes p.1 s), p.2 j = tot) {hs : List (List Int)} (hr : ∀ v ∈ hs, InRange s v) :
    ∀ p ∈ remaining hs P, ∑ j ∈ cells (projSizes p.1 s), p.2 j = tot - hs.length := by
  intro p hp
  obtain ⟨q, hq, rfl⟩ := List.mem_map.mp hp
  simp only
  rw [Finset.sum_sub_distrib, ht q hq, sum_countP (h.dims q hq).2 hr]

theorem probOK_remaining_all {s : List Nat} {P : Prob Int} {pop : Int} (h : ProbOK s P pop) :
    ∀ {hs : List (List Int)}, (∀ v ∈ hs, InRange s v) → ¬ Overdrawn s P hs → ProbOK s (remaining hs P) (pop - hs.length)
  | [], _, _ => by
    have e : remaining [] P = P := by simp [remaining]
    rw [e]; simpa using h
  | v :: hs, hr, ho => by
    have hv := hr v (by simp)
    have hno : ¬ Overdrawn s P hs := by
      rintro ⟨p, hp, j, hj, hlt⟩
      obtain ⟨q, hq, rfl⟩ := List.mem_map.mp hp
      refine ho ⟨_, List.mem_map.mpr ⟨q, hq, rfl⟩, j, hj, ?_⟩
      have := List.countP_cons (p := fun v => decide (proj q.1 v = j)) (a := v) (l := hs)
      simp only at hlt ⊢
      rw [this]
      push_cast
      split <;> omega
    have ih := probOK_remaining_all h (hs := hs) (fun w hw => hr w (by simp [hw])) hno
    have e : pop - ((v :: hs).length : Int) + 1 = pop - hs.length := by simp; omega
    rw [← e] at ih
    have := probOK_remaining ih hv (by
      intro p hp
      by_contra hc
      refine ho ?_
      obtain ⟨q, hq, rfl⟩ := List.mem_map.mp hp
      refine ⟨_, List.mem_map.mpr ⟨q, hq, rfl⟩, proj q.1 v, inRange_proj (h.dims q hq).2 hv, ?_⟩
      simp only at hc ⊢
      rw [List.countP_cons]
      simp
      omega)
    rwa [remaining_cons] at this

/-- The object while the individuals `hs` have been placed and the working population is `a`. -/
structure QISIAt (s : List Nat) (P : Prob Int) (pop : Int) (hs : List (List Int)) (a : List Int → Fl) (x : QISI) : Prop where
  micro : x.micro = { mkMicro Int s P pop with marginals := marginalsOf s (remaining hs P), array := arr s (fun v => (hs.count v : Int)) }
  ipf : x.ipf = arr s a

theorem recompute_cases (hfp : fp.Good) {s : List Nat} {P : Prob Int} {pop : Int} (h : ProbOK s P pop) (hpop : pop < 2 ^ 52)
    (hp : ProperProb s P) {hs : List (List Int)} (hr : ∀ v ∈ hs, InRange s v) (hl : (hs.length : Int) ≤ pop)
    (sd : List Int → Fl) {x : QISI} (hi : x.micro.indices = indicesOf P)
    (hm : x.micro.marginals = marginalsOf s (remaining hs P)) {g : List Int → Option Fl} (hx : x.ipf = arrO s g) :
    (Overdrawn s P hs ∧ ∃ e, recomputeIPF false fp (arr s sd) x = .thrown e) ∨
    ∃ c, Fit fp s (remaining hs P) sd c ∧ recomputeIPF false fp (arr s sd) x = .ok { x with ipf := arr s c } := by
  have hsh := shape_remaining h.toProbShape hs
  have hpr := properProb_remaining hp hs
  have h0 := h.pop_nonneg
  have htot := remaining_total h.toProbShape h.total hr
  have hsm : ∀ p ∈ remaining hs P, |∑ j ∈ cells (projSizes p.1 s), p.2 j| < 2 ^ 52 := by
    intro p hp
    rw [htot p hp, abs_lt]; omega
  by_cases ho : Overdrawn s P hs
  · left
    refine ⟨ho, ?_⟩
    rcases new_shape (β := Fl) fp (numInt fp) (minOK_int fp) hsh (fun p hp => by
      unfold roundedTotal
      rw [seqSum_int]
      exact rounded_int_ok hfp (hsm p hp)) with ⟨pop', h4, -⟩ | ⟨⟨e, he⟩, -⟩
    · obtain ⟨p, hp, j, hj, hlt⟩ := ho
      have := ((probOK_iff hfp hsm).mp h4).nonneg p hp j hj
      omega
    · refine ⟨e, ?_⟩
      unfold recomputeIPF IPF.run IPF.new
      rw [hi, hm, ← indicesOf_remaining hs P, he]
      rfl
  · right
    have hok := (probOK_iff hfp hsm).mpr (probOK_remaining_all h hr ho)
    obtain ⟨r, hr'⟩ := ipf_run_ok fp (numInt fp) (minOK_int fp) hok hpr sd
    obtain ⟨pop', n, -, -, -, -, -, hr2⟩ := ipf_run fp (numInt fp) (minOK_int fp) hsh hpr sd hr'
    refine ⟨_, ⟨r, hr', by rw [hr2]; rfl⟩, ?_⟩
    unfold recomputeIPF
    rw [hi, hm, ← indicesOf_remaining hs P, hr']
    simp only [Out.ok_bind]
    rw [hr2, hx]
    have e : (ipfState fp (numInt fp) s (remaining hs P) pop' ((sweep fp (numInt fp) s (remaining hs P))^[n] sd) n).1.micro.array =
      arr s ((sweep fp (numInt fp) s (remaining hs P))^[n] sd) := rfl
    rw [e, copy_same h.toProbShape.good]
    rfl

/-- The state of the loop. -/
structure LoopAt (fp : FP) (s : List Nat) (P : Prob Int) (pop : Int) (sd : List Int → Fl) (hs : List (List Int))
    (a : List Int → Fl) (t : Loop) : Prop where
  obj : QISIAt s P pop hs a t.obj
  gen : SobolAt s.length hs.length t.gen
  idx : t.idx.length = s.length
  placed : Placed fp s P sd hs a

/-- the working population after taking out an individual, before a possible new fit -/
abbrev takenOut (fp : FP) (a : List Int → Fl) (v : List Int) : List Int → Fl :=
  Function.update a v (fp.sub (a v) (.fin 1))

theorem place_ok {s : List Nat} {P : Prob Int} (h : ProbShape s P) {pop : Int} {hs : List (List Int)} {a : List Int → Fl}
    {x : QISI} (hx : QISIAt s P pop hs a x) {v : List Int} (hv : InRange s v) :
    ∃ x', place (mapsOf s P) v x = .ok x' ∧ QISIAt s P pop (v :: hs) a x' ∧ x'.expected = x.expected ∧
      x'.sobol = x.sobol ∧ x'.conv = (x.conv && decide (∀ p ∈ remaining hs P, 1 ≤ p.2 (proj p.1 v))) := by
  have e2 : x.micro.marginals = marginalsOf s (remaining hs P) := by rw [hx.micro]
  have e4 : x.micro.array = arr s (fun v => (hs.count v : Int)) := by rw [hx.micro]
  have hdim : ∀ p ∈ remaining hs P, p.1 ≠ [] ∧ ∀ d ∈ p.1, d < s.length := (shape_remaining h hs).dims
  unfold place
  rw [e2, e4, modify_arr hv]
  simp only [Out.ok_bind]
  have hdec := decrement_eq hv (remaining hs P) x.conv (fun p hp => (hdim p hp).2)
  rw [mapsOf_remaining] at hdec
  rw [hdec]
  simp only [Out.ok_bind, Out.pure_eq]
  refine ⟨_, rfl, ⟨?_, hx.ipf⟩, rfl, rfl, rfl⟩
  simp only []
  rw [hx.micro]
  simp only [remaining_cons]
  congr 1
  apply arr_congr
  intro w _
  by_cases hw : w = v
  · subst hw; simp
  · rw [Function.update_of_ne hw]
    simp [List.count_cons, Ne.symm hw]

theorem takeOut_cases (hfp : fp.Good) {s : List Nat} {P : Prob Int} {pop : Int} (h : ProbOK s P pop) (hpop : pop < 2 ^ 52)
    (hp : ProperProb s P) {hs : List (List Int)} (hr : ∀ v ∈ hs, InRange s v) (hl : (hs.length : Int) ≤ pop)
    (sd : List Int → Fl) {x : QISI} {a : List Int → Fl} (hx : QISIAt s P pop hs a x) {v : List Int} (hv : InRange s v) :
    (FP.lt (fp.sub (a v) (.fin 1)) (.fin 0) = false ∧
      takeOut false fp (arr s sd) v x = .ok { x with ipf := arr s (takenOut fp a v) }) ∨
    (FP.lt (fp.sub (a v) (.fin 1)) (.fin 0) = true ∧
      ((Overdrawn s P hs ∧ ∃ e, takeOut false fp (arr s sd) v x = .thrown e) ∨
      ∃ c, Fit fp s (remaining hs P) sd c ∧ takeOut false fp (arr s sd) v x = .ok { x with ipf := arr s c })) := by
  unfold takeOut
  rw [hx.ipf, modify_arr hv]
  simp only [Out.ok_bind]
  rw [get_arr hv]
  simp only [Out.ok_bind, Function.update_self]
  cases hlt : FP.lt (fp.sub (a v) (.fin 1)) (.fin 0) with
  | false => left; simp
  | true =>
    right
    refine ⟨rfl, ?_⟩
    rw [if_pos rfl]
    have := recompute_cases hfp h hpop hp hr hl sd (x := { x with ipf := arr s (takenOut fp a v) })
      (by simp only [hx.micro]; rfl) (by simp only [hx.micro]) (g := fun w => some (takenOut fp a v w)) rfl
    exact this

theorem individual_cases' (hfp : fp.Good) {s : List Nat} {P : Prob Int} {pop : Int} (h : ProbOK s P pop) (hpop : pop < 2 ^ 52)
    (hp : ProperProb s P) {sd : List Int → Fl} {hs : List (List Int)} {a : List Int → Fl} {t : Loop}
    (ht : LoopAt fp s P pop sd hs a t) (hl : (hs.length : Int) < pop) :
    (hs.length = 2 ^ 32 - 1 ∧ individual false fp (arr s sd) (mapsOf s P) t = .thrown .sobolExhausted) ∨
    (∃ seq, PointAt s.length (hs.length + 1) seq ∧
      ((¬ ∃ v, Drawn fp seq s a v) ∧ individual false fp (arr s sd) (mapsOf s P) t = .thrown .pickFailed ∨
      ∃ v, Drawn fp seq s a v ∧
        ((FP.lt (fp.sub (a v) (.fin 1)) (.fin 0) = true ∧ Overdrawn s P (v :: hs) ∧
          ∃ e, individual false fp (arr s sd) (mapsOf s P) t = .thrown e) ∨
        ∃ a' t', individual false fp (arr s sd) (mapsOf s P) t = .ok t' ∧ LoopAt fp s P pop sd (v :: hs) a' t' ∧
          t'.obj.expected = t.obj.expected ∧ t'.obj.sobol = t.obj.sobol ∧
          t'.obj.conv = (t.obj.conv && decide (∀ p ∈ remaining hs P, 1 ≤ p.2 (proj p.1 v)))))) := by
  have hg := h.toProbShape.good
  have h2 := h.toProbShape.two
  unfold individual
  by_cases hn : hs.length = 2 ^ 32 - 1
  · left
    have hgen := ht.gen
    rw [hn] at hgen
    rw [next_end hgen]
    exact ⟨hn, rfl⟩
  right
  obtain ⟨sb, seq, h1, h3, h4, -, -⟩ := next_ok ht.gen (lt_of_le_of_ne ht.gen.bound hn)
  refine ⟨seq, h4, ?_⟩
  rw [h1]
  simp only [Out.ok_bind]
  have e1 : t.obj.ipf.sizes.length - 2 = s.length - 2 := by rw [ht.obj.ipf]; rfl
  rw [e1, ht.obj.ipf]
  rcases getIndex_cases (fp := fp) (seq := seq) (s.length - 2) s a t.idx hg (by omega) (by rw [h4.1]) (by rw [ht.idx]) with
    ⟨hd, hno⟩ | ⟨v, hd, hgi⟩
  · left
    rw [hd]
    exact ⟨hno, rfl⟩
  right
  refine ⟨v, hd, ?_⟩
  have hv := hd.inRange
  have hgi' : getIndex fp seq (s.length - 2) (arr s a) t.idx = .ok v := by
    rw [hgi, List.drop_eq_nil_of_le (by rw [ht.idx]), List.append_nil]
  rw [hgi']
  simp only [Out.ok_bind]
  obtain ⟨x', hx1, hx2, hx3, hx5, hx4⟩ := place_ok h.toProbShape ht.obj hv
  rw [hx1]
  simp only [Out.ok_bind]
  have hr : ∀ w ∈ v :: hs, InRange s w := by
    intro w hw
    rcases List.mem_cons.mp hw with rfl | hw
    · exact hv
    · exact ht.placed.range w hw
  rcases takeOut_cases hfp h hpop hp hr (by simp; omega) sd hx2 hv with ⟨hlt, hto⟩ | ⟨hlt, ⟨ho, e, hto⟩ | ⟨c, hc, hto⟩⟩
  · right
    rw [hto]
    exact ⟨_, _, rfl, ⟨⟨hx2.micro, rfl⟩, h3, inRange_length hv, .keep hs a seq v ht.placed h4 hd hlt⟩, hx3, hx5, hx4⟩
  · left
    rw [hto]
    exact ⟨hlt, ho, e, rfl⟩
  · right
    rw [hto]
    exact ⟨_, _, rfl, ⟨⟨hx2.micro, rfl⟩, h3, inRange_length hv, .refit hs a seq v c ht.placed h4 hd hlt hc⟩, hx3, hx5, hx4⟩

theorem individuals_cases' (hfp : fp.Good) {s : List Nat} {P : Prob Int} {pop : Int} (h : ProbOK s P pop) (hpop : pop < 2 ^ 52)
    (hp : ProperProb s P) {sd : List Int → Fl} : ∀ (k : Nat) {hs : List (List Int)} {a : List Int → Fl} {t : Loop},
    LoopAt fp s P pop sd hs a t → (hs.length + k : Int) ≤ pop → (t.obj.conv = true ↔ Unspent P hs) →
    (∃ e, individuals false fp (arr s sd) (mapsOf s P) k t = .thrown e) ∨
    ∃ (vs : List (List Int)) (a' : List Int → Fl) (t' : Loop), vs.length = k ∧
      individuals false fp (arr s sd) (mapsOf s P) k t = .ok t' ∧ LoopAt fp s P pop sd (vs ++ hs) a' t' ∧
      t'.obj.expected = t.obj.expected ∧ t'.obj.sobol = t.obj.sobol ∧ (t'.obj.conv = true ↔ Unspent P (vs ++ hs))
  | 0, hs, a, t, ht, _, hc => Or.inr ⟨[], a, t, rfl, rfl, ht, rfl, rfl, hc⟩
  | k + 1, hs, a, t, ht, hl, hc => by
    unfold individuals
    rcases individual_cases' hfp h hpop hp ht (by push_cast at hl; omega) with
      ⟨-, hi⟩ | ⟨seq, -, ⟨-, hi⟩ | ⟨v, -, ⟨-, -, e, hi⟩ | ⟨a1, t1, hi, h1, h2, h3, h4⟩⟩⟩
    · left; rw [hi]; exact ⟨_, rfl⟩
    · left; rw [hi]; exact ⟨_, rfl⟩
    · left; rw [hi]; exact ⟨e, rfl⟩
    · rw [hi]
      simp only [Out.ok_bind]
      have hc1 : t1.obj.conv = true ↔ Unspent P (v :: hs) := by
        rw [h4, unspent_cons, Bool.and_eq_true, hc, decide_eq_true_eq]
      rcases individuals_cases' hfp h hpop hp k h1 (by simp; push_cast at hl; omega) hc1 with he | ⟨vs, a2, t2, g1, g2, g3, g4, g5, g6⟩
      · exact Or.inl he
      · right
        refine ⟨vs ++ [v], a2, t2, by simp [g1], g2, by simpa using g3, g4.trans h2, g5.trans h3, by simpa using g6⟩

end HL
