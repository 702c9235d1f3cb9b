import Verif.QISSpec
import Verif.Proof.QISSplit
import Verif.Proof.MicroInt
import Verif.Proof.IPFLemmas
import Verif.Props.Sobol

/-
The population loop of QIS.
-/

namespace HL
open QIS
variable {fp : FP}

/-- the mapped indices of a problem -/
def mapsOf (s : List Nat) (P : Prob Int) : List MappedIndex := P.map (fun p => ⟨p.1, projSizes p.1 s, false⟩)

theorem indicesOf_remaining (hs : List (List Int)) (P : Prob Int) : indicesOf (remaining hs P) = indicesOf P := by
  simp [indicesOf, remaining, Function.comp_def]

theorem mapsOf_remaining (s : List Nat) (hs : List (List Int)) (P : Prob Int) : mapsOf s (remaining hs P) = mapsOf s P := by
  simp [mapsOf, remaining, Function.comp_def]

theorem sampleAll_cases {s : List Nat} {seq : List U32} (hg : GoodShape s) (hs : seq.length = s.length) :
    ∀ (Q : Prob Int) (idx : List Int), (∀ p ∈ Q, p.1 ≠ [] ∧ ∀ d ∈ p.1, d < s.length) → PartialIdx s idx →
    sampleAll fp seq (indicesOf Q) (mapsOf s Q) (marginalsOf s Q) idx = .thrown .pickFailed ∨
    ∃ idx', sampleAll fp seq (indicesOf Q) (mapsOf s Q) (marginalsOf s Q) idx = .ok idx' ∧ PartialIdx s idx' ∧
      (∀ p ∈ Q, ∀ d ∈ p.1, 0 ≤ idx'.getD d 0) ∧ ∀ d, 0 ≤ idx.getD d 0 → idx'.getD d 0 = idx.getD d 0
  | [], idx, _, hp => Or.inr ⟨idx, rfl, hp, by simp, fun _ _ => rfl⟩
  | q :: Q, idx, hd, hp => by
    have hq := hd q (by simp)
    have e : sampleAll fp seq (indicesOf (q :: Q)) (mapsOf s (q :: Q)) (marginalsOf s (q :: Q)) idx =
        (sample fp (q.1.map (fun d : Nat => (d : Int))) seq (arr (projSizes q.1 s) q.2) ⟨q.1, projSizes q.1 s, false⟩ idx >>=
          fun idx => sampleAll fp seq (indicesOf Q) (mapsOf s Q) (marginalsOf s Q) idx) := rfl
    rw [e]
    rcases sample_cases (fp := fp) hg hp hs hq.2 hq.1 q.2 false with h | ⟨i1, h, h1⟩
    · left; rw [h]; rfl
    · rw [h]
      simp only [Out.ok_bind]
      rcases sampleAll_cases hg hs Q i1 (fun p hp => hd p (by simp [hp])) h1.part with h2 | ⟨i2, h2, h3, h4, h5⟩
      · exact Or.inl h2
      · right
        refine ⟨i2, h2, h3, ?_, ?_⟩
        · intro p hpm d hdm
          rcases List.mem_cons.mp hpm with rfl | hpm
          · have := h1.set d hdm
            rw [h5 d this]; exact this
          · exact h4 p hpm d hdm
        · intro d h0
          have := h1.keep d h0
          rw [h5 d (by rw [this]; exact h0), this]

theorem partial_replicate (s : List Nat) : PartialIdx s (List.replicate s.length (-1)) := by
  refine ⟨by simp, fun d hd => Or.inl ?_⟩
  simp [List.getD_eq_getElem?_getD, hd]

theorem inRange_of_partial {s : List Nat} {idx : List Int} (h : PartialIdx s idx) (h0 : ∀ d < s.length, 0 ≤ idx.getD d 0) :
    InRange s idx := by
  rw [inRange_iff_getD]
  refine ⟨h.1, fun d hd => ⟨h0 d hd, ?_⟩⟩
  rcases h.2 d hd with h1 | h1
  · have := h0 d hd; omega
  · exact h1.2

theorem not_any_neg {s : List Nat} {idx : List Int} (h : InRange s idx) :
    idx.any (fun i => decide (i < 0)) = false := by
  rw [List.any_eq_false]
  intro i hi
  obtain ⟨d, hd, rfl⟩ := List.getElem_of_mem hi
  have hd' : d < s.length := by rw [← inRange_length h]; exact hd
  have := (inRange_getD h hd').1
  simp only [List.getD_eq_getElem?_getD, List.getElem?_eq_getElem hd, Option.getD_some] at this
  simpa using this

theorem decrement_eq {s : List Nat} {v : List Int} (hv : InRange s v) : ∀ (Q : Prob Int) (conv : Bool),
    (∀ p ∈ Q, ∀ d ∈ p.1, d < s.length) →
    decrement v (mapsOf s Q) (marginalsOf s Q) conv =
      .ok (marginalsOf s (remaining [v] Q), conv && decide (∀ p ∈ Q, 1 ≤ p.2 (proj p.1 v)))
  | [], conv, _ => by simp [decrement, mapsOf, marginalsOf, remaining]
  | q :: Q, conv, hd => by
    have e : decrement v (mapsOf s (q :: Q)) (marginalsOf s (q :: Q)) conv =
        ((arr (projSizes q.1 s) q.2).modify (proj q.1 v) (fun x => x - 1) >>= fun g =>
          g.get (proj q.1 v) >>= fun w => decrement v (mapsOf s Q) (marginalsOf s Q) (if w < 0 then false else conv) >>= fun r =>
            pure (g :: r.1, r.2)) := rfl
    have hr := inRange_proj (hd q (by simp)) hv
    rw [e, modify_arr hr]
    simp only [Out.ok_bind]
    rw [get_arr hr]
    simp only [Out.ok_bind]
    rw [decrement_eq hv Q _ (fun p hp => hd p (by simp [hp]))]
    simp only [Out.ok_bind, Out.pure_eq, Function.update_self]
    congr 1
    apply Prod.ext
    · simp only [marginalsOf, remaining, List.map_cons]
      congr 1
      apply arr_congr
      intro j _
      by_cases hj : j = proj q.1 v
      · subst hj; simp
      · rw [Function.update_of_ne hj]
        simp [List.countP_cons, Ne.symm hj]
    · simp only [List.forall_mem_cons, Bool.decide_and]
      by_cases h1 : 1 ≤ q.2 (proj q.1 v)
      · rw [if_neg (by omega)]; simp [h1]
      · rw [if_pos (by omega)]; simp [h1]

theorem remaining_cons (v : List Int) (hs : List (List Int)) (P : Prob Int) :
    remaining [v] (remaining hs P) = remaining (v :: hs) P := by
  simp only [remaining, List.map_map]
  apply List.map_congr_left
  intro p _
  simp only [Function.comp_def, List.countP_cons, List.countP_nil]
  congr 1
  funext j
  push_cast
  omega

/-- The object after the individuals `hs` (the latest first) have been placed, with a Sobol generator that has produced `n` points. -/
structure QISAt (s : List Nat) (P : Prob Int) (pop : Int) (hs : List (List Int)) (n : Nat) (x : QIS) : Prop where
  micro : x.micro = { mkMicro Int s P pop with marginals := marginalsOf s (remaining hs P), array := arr s (fun v => (hs.count v : Int)) }
  sobol : SobolAt s.length n x.sobol

/-- the cell `v` is chosen with the values `seq` after the individuals `hs` -/
def Draw (fp : FP) (s : List Nat) (P : Prob Int) (seq : List U32) (hs : List (List Int)) (v : List Int) : Prop :=
  sampleAll fp seq (indicesOf P) (mapsOf s P) (marginalsOf s (remaining hs P)) (List.replicate s.length (-1)) = .ok v

theorem individual_cases {s : List Nat} {P : Prob Int} (h : ProbShape s P) {pop : Int} {hs : List (List Int)} {n : Nat} {x : QIS}
    (hx : QISAt s P pop hs n x) :
    individual fp (mapsOf s P) x = .thrown .pickFailed ∨
    (n = 2 ^ 32 - 1 ∧ individual fp (mapsOf s P) x = .thrown .sobolExhausted) ∨
    ∃ v x' seq, InRange s v ∧ individual fp (mapsOf s P) x = .ok x' ∧ QISAt s P pop (v :: hs) (n + 1) x' ∧
      x'.expected = x.expected ∧ x'.stateValues = x.stateValues ∧
      x'.conv = (x.conv && decide (∀ p ∈ remaining hs P, 1 ≤ p.2 (proj p.1 v))) ∧
      PointAt s.length (n + 1) seq ∧ Draw fp s P seq hs v := by
  unfold individual
  by_cases hn : n = 2 ^ 32 - 1
  · subst hn
    right; left
    rw [next_end hx.sobol]
    exact ⟨rfl, rfl⟩
  · obtain ⟨sb, seq, h1, h2, h3, -, -⟩ := next_ok hx.sobol (lt_of_le_of_ne hx.sobol.bound hn)
    rw [h1]
    simp only [Out.ok_bind]
    have e1 : x.micro.indices = indicesOf P := by rw [hx.micro]; rfl
    have e2 : x.micro.marginals = marginalsOf s (remaining hs P) := by rw [hx.micro]
    have e3 : x.micro.dim = s.length := by rw [hx.micro]; rfl
    have e4 : x.micro.array = arr s (fun v => (hs.count v : Int)) := by rw [hx.micro]
    rw [e1, e2, e3]
    have hdim : ∀ p ∈ remaining hs P, p.1 ≠ [] ∧ ∀ d ∈ p.1, d < s.length := by
      intro p hp
      simp only [remaining, List.mem_map] at hp
      obtain ⟨q, hq, rfl⟩ := hp
      exact h.dims q hq
    have hc := sampleAll_cases (fp := fp) h.good (seq := seq) h3.1 (remaining hs P) _ hdim (partial_replicate s)
    rw [indicesOf_remaining, mapsOf_remaining] at hc
    rcases hc with hc | ⟨v, hc, hp1, hp2, -⟩
    · left
      rw [hc]; rfl
    · right; right
      have hv : InRange s v := by
        refine inRange_of_partial hp1 ?_
        intro d hd
        obtain ⟨p, hp, hdp⟩ := h.cover d hd
        exact hp2 _ (List.mem_map.mpr ⟨p, hp, rfl⟩) d hdp
      rw [hc]
      simp only [Out.ok_bind]
      rw [not_any_neg hv, if_neg (by simp)]
      have hdec := decrement_eq hv (remaining hs P) x.conv (fun p hp => (hdim p hp).2)
      rw [mapsOf_remaining] at hdec
      rw [hdec]
      simp only [Out.ok_bind]
      rw [e4, modify_arr hv]
      simp only [Out.ok_bind, Out.pure_eq]
      refine ⟨v, _, seq, hv, rfl, ⟨?_, h2⟩, rfl, rfl, rfl, h3, hc⟩
      simp only []
      rw [hx.micro]
      simp only [remaining_cons]
      congr 1
      apply arr_congr
      intro w _
      by_cases hw : w = v
      · subst hw; simp
      · rw [Function.update_of_ne hw]
        simp [List.count_cons, Ne.symm hw]

/-- `conv` after the individuals `hs`, if it was true before. -/
def Unspent (P : Prob Int) (hs : List (List Int)) : Prop :=
  ∀ p ∈ P, ∀ v ∈ hs, (hs.countP (fun w => proj p.1 w = proj p.1 v) : Int) ≤ p.2 (proj p.1 v)

theorem unspent_cons {P : Prob Int} {hs : List (List Int)} {v : List Int} :
    Unspent P (v :: hs) ↔ Unspent P hs ∧ ∀ p ∈ remaining hs P, 1 ≤ p.2 (proj p.1 v) := by
  unfold Unspent
  simp only [remaining, List.mem_map]
  constructor
  · intro h
    constructor
    · intro p hp w hw
      have := h p hp w (by simp [hw])
      rw [List.countP_cons] at this
      push_cast at this
      split at this <;> omega
    · rintro _ ⟨p, hp, rfl⟩
      have := h p hp v (by simp)
      rw [List.countP_cons] at this
      simp only [decide_true, if_true] at this
      push_cast at this
      simp only []
      omega
  · rintro ⟨h1, h2⟩ p hp w hw
    have h3 := h2 _ ⟨p, hp, rfl⟩
    simp only [] at h3
    by_cases hpv : proj p.1 w = proj p.1 v
    · rw [hpv, List.countP_cons]
      simp only [decide_true, if_true]
      push_cast; omega
    · have hw' : w ∈ hs := by
        rcases List.mem_cons.mp hw with rfl | hw
        · exact absurd rfl hpv
        · exact hw
      have := h1 p hp w hw'
      rw [List.countP_cons]
      have e : decide (proj p.1 v = proj p.1 w) = false := by simpa using Ne.symm hpv
      rw [e]
      simpa using this

theorem individuals_cases {s : List Nat} {P : Prob Int} (h : ProbShape s P) {pop : Int} : ∀ (k : Nat) {hs : List (List Int)} {n : Nat} {x : QIS},
    QISAt s P pop hs n x → (x.conv = true ↔ Unspent P hs) →
    individuals fp (mapsOf s P) k x = .thrown .pickFailed ∨
    (2 ^ 32 - 1 < n + k ∧ individuals fp (mapsOf s P) k x = .thrown .sobolExhausted) ∨
    ∃ (vs : List (List Int)) (seqs : List (List U32)) (x' : QIS), vs.length = k ∧ seqs.length = k ∧ (∀ v ∈ vs, InRange s v) ∧ individuals fp (mapsOf s P) k x = .ok x' ∧
      QISAt s P pop (vs.reverse ++ hs) (n + k) x' ∧ x'.expected = x.expected ∧ x'.stateValues = x.stateValues ∧
      (x'.conv = true ↔ Unspent P (vs.reverse ++ hs)) ∧
      ∀ i < k, ∃ seq v, seqs[i]? = some seq ∧ vs[i]? = some v ∧ PointAt s.length (n + i + 1) seq ∧
        Draw fp s P seq ((vs.take i).reverse ++ hs) v
  | 0, hs, n, x, hx, hc => by
    right; right
    exact ⟨[], [], x, rfl, rfl, by simp, rfl, hx, rfl, rfl, hc, by intro i hi; omega⟩
  | k + 1, hs, n, x, hx, hc => by
    unfold individuals
    rcases individual_cases (fp := fp) h hx with h1 | ⟨h1, h2⟩ | ⟨v, x', seq, hv, h1, h2, h3, h4, h5, h6, h7⟩
    · left; rw [h1]; rfl
    · right; left; rw [h2]; exact ⟨by omega, rfl⟩
    · rw [h1]
      simp only [Out.ok_bind]
      have hc' : x'.conv = true ↔ Unspent P (v :: hs) := by
        rw [h5, unspent_cons, Bool.and_eq_true, decide_eq_true_iff, hc]
      rcases individuals_cases h k h2 hc' with h8 | ⟨h8, h9⟩ | ⟨vs, seqs, x'', g1, g2, g3, g4, g5, g6, g7, g8, g9⟩
      · exact Or.inl h8
      · exact Or.inr (Or.inl ⟨by omega, h9⟩)
      · right; right
        refine ⟨v :: vs, seq :: seqs, x'', by simp [g1], by simp [g2], ?_, g4, ?_, g6.trans h3, g7.trans h4, ?_, ?_⟩
        · intro w hw
          rcases List.mem_cons.mp hw with rfl | hw
          · exact hv
          · exact g3 w hw
        · simp only [List.reverse_cons, List.append_assoc, List.singleton_append]
          rw [show n + (k + 1) = n + 1 + k by omega]; exact g5
        · simp only [List.reverse_cons, List.append_assoc, List.singleton_append]; exact g8
        · intro i hi
          cases i with
          | zero => exact ⟨seq, v, rfl, rfl, h6, h7⟩
          | succ i =>
            obtain ⟨sq, w, a1, a2, a3, a4⟩ := g9 i (by omega)
            refine ⟨sq, w, by simpa using a1, by simpa using a2, ?_, ?_⟩
            · rw [show n + (i + 1) + 1 = n + 1 + i + 1 by omega]; exact a3
            · simpa using a4

end HL
