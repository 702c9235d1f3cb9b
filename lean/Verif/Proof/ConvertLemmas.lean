import Verif.Proof.ArrayLemmas
import Verif.Model.RConvert

namespace HL
variable {α : Type}

theorem prodSizes_append (s t : List Nat) : prodSizes (s ++ t) = prodSizes s * prodSizes t := by
  induction s with
  | nil => simp [prodSizes]
  | cons n s ih => simp [prodSizes, ih, Nat.mul_assoc]

theorem prodSizes_reverse (s : List Nat) : prodSizes s.reverse = prodSizes s := by
  induction s with
  | nil => rfl
  | cons n s ih => simp [prodSizes_append, prodSizes, ih, Nat.mul_comm]

theorem rank_append : ∀ {s t : List Nat} {v w : List Int}, v.length = s.length →
    rank (s ++ t) (v ++ w) = prodSizes t * rank s v + rank t w
  | [], t, [], w, _ => by simp [rank]
  | [], _, _ :: _, _, h => by simp at h
  | n :: s, t, [], _, h => by simp at h
  | n :: s, t, i :: v, w, h => by
    simp only [List.cons_append, rank]
    rw [rank_append (by simpa using h), prodSizes_append]
    push_cast
    ring

theorem rank_reverse : ∀ {s : List Nat} {v : List Int}, v.length = s.length →
    rank s.reverse v.reverse = colRank s v
  | [], [], _ => rfl
  | [], _ :: _, h => by simp at h
  | n :: s, [], h => by simp at h
  | n :: s, i :: v, h => by
    have h' : v.length = s.length := by simpa using h
    simp only [List.reverse_cons, colRank]
    rw [rank_append (by simpa using h'), rank_reverse h']
    simp [rank, prodSizes]
    ring

theorem inRange_reverse {s : List Nat} {v : List Int} : InRange s.reverse v.reverse ↔ InRange s v := by
  unfold InRange
  exact List.forall₂_reverse_iff

theorem rConvert_eq {s : List Nat} (hg : GoodShape s) (data : List α) (x0 : α) (hl : data.length = prodSizes s) :
    rConvertArray (some s) data = .ok (arr s (fun v => data.getD (colRank s v).toNat x0)) := by
  unfold rConvertArray
  simp only []
  rw [new_eq hg]
  simp only [Out.ok_bind]
  rw [forTransposed_eq hg]
  set L := (allIdx s.reverse).map List.reverse with hL
  have hlen : L.length = prodSizes s := by rw [hL, List.length_map, length_allIdx, prodSizes_reverse]
  have hcol : ∀ (k : Nat) (v : List Int), L[k]? = some v → InRange s v ∧ colRank s v = k := by
    intro k v h
    rw [hL, List.getElem?_map, Option.map_eq_some_iff] at h
    obtain ⟨w, hw, rfl⟩ := h
    have hr : InRange s.reverse w := mem_allIdx.mp (List.mem_of_getElem? hw)
    have hwl := inRange_length hr
    refine ⟨inRange_reverse.mp (by simpa using hr), ?_⟩
    have := rank_reverse (s := s) (v := w.reverse) (by simpa using hwl)
    rw [List.reverse_reverse] at this
    rw [← this]
    exact rank_of_getElem hw
  have hnodup : L.Nodup := (nodup_allIdx _).map List.reverse_injective
  have key : ∀ (M P : List (List Int)), L = P ++ M → ∀ (S : List Int → Option α),
      M.foldlM (rConvertStep data) (arrO s S, P.length) =
      Out.ok (arrO s (fun v => if v ∈ M then some (data.getD (colRank s v).toNat x0) else S v), L.length) := by
    intro M
    induction M with
    | nil => intro P h S; simp at h; simp [h]
    | cons v M ih =>
      intro P h S
      have hk : L[P.length]? = some v := by rw [h]; simp
      obtain ⟨hr, hc⟩ := hcol _ _ hk
      have hlt : P.length < data.length := by
        rw [hl, ← hlen]; exact (List.getElem?_eq_some_iff.mp hk).1
      rw [List.foldlM_cons]
      have hstep : rConvertStep data (arrO s S, P.length) v =
          .ok (arrO s (Function.update S v (some data[P.length])), P.length + 1) := by
        unfold rConvertStep
        simp only [List.getElem?_eq_getElem hlt]
        rw [setO_arr hr]
        rfl
      rw [hstep]
      simp only [Out.ok_bind]
      have := ih (P ++ [v]) (by simp [h]) (Function.update S v (some data[P.length]))
      simp only [List.length_append, List.length_singleton] at this
      rw [this]
      congr 2
      apply arrO_congr
      intro w hw
      by_cases hwv : w = v
      · subst hwv
        have hnot : w ∉ M := by
          have := h ▸ hnodup
          rw [List.nodup_append] at this
          exact (List.nodup_cons.mp this.2.1).1
        simp [hnot, hc, List.getD_eq_getElem?_getD, hlt]
      · by_cases hwM : w ∈ M <;> simp [hwv, hwM]
  have := key L [] rfl (fun _ => none)
  rw [List.length_nil] at this
  rw [this]
  simp only [Out.ok_bind, Out.pure_eq]
  congr 1
  apply arrO_congr
  intro v hv
  have : v ∈ L := by
    rw [hL, List.mem_map]
    exact ⟨v.reverse, mem_allIdx.mpr (inRange_reverse.mpr hv), by simp⟩
  simp [this]

end HL
