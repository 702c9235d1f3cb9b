import Verif.PySpec
import Verif.Proof.MicroNew

/- The Python binding. -/

namespace HL
variable {α : Type}

theorem prodSizes_eq_prod (s : List Nat) : prodSizes s = s.prod := by
  induction s with
  | nil => rfl
  | cons n s ih => simp [prodSizes, ih]

theorem dot_rowStrides (s : List Nat) (v : List Int) : dot (rowStrides s) v = rank s v := by
  induction s generalizing v with
  | nil => simp [rowStrides, dot, rank]
  | cons n s ih =>
    cases v with
    | nil => simp [rowStrides, dot, rank]
    | cons i v => simp [rowStrides, dot, rank, ih, prodSizes_eq_prod]

namespace NpArray

theorem block_contig {np : NpArray α} {s : List Nat} {g : List Int → α} (h : np.Holds s g) (hc : np.CContig) :
    np.block = (allIdx s).map g := by
  obtain ⟨rfl, h2⟩ := h
  have hk : ∀ k v, (allIdx np.shape)[k]? = some v → np.buffer[np.start + k]? = some (g v) := by
    intro k v hv
    have hr := rank_of_getElem hv
    have hin : InRange np.shape v := mem_allIdx.mp (List.mem_of_getElem? hv)
    have := h2 v hin
    unfold NpArray.elem at this
    rw [hc v hin, dot_rowStrides, hr, if_pos (by positivity)] at this
    rw [← this]
    congr 1
  apply List.ext_getElem?
  intro k
  unfold NpArray.block
  rw [List.getElem?_take, List.getElem?_map]
  by_cases hlt : k < prodSizes np.shape
  · rw [if_pos hlt, List.getElem?_drop]
    have hlt' : k < (allIdx np.shape).length := by rw [length_allIdx]; exact hlt
    have hv := List.getElem?_eq_getElem hlt'
    rw [hk k _ hv, hv]
    rfl
  · rw [if_neg hlt, List.getElem?_eq_none (by rw [length_allIdx]; omega)]
    rfl

theorem asNDArray_contig {np : NpArray α} {s : List Nat} {g : List Int → α} (hs : GoodShape s) (h : np.Holds s g) (hc : np.CContig) :
    np.asNDArray = .ok (arr s g) := by
  unfold asNDArray
  rw [block_contig h hc, h.shape, List.map_map]
  exact wrap_eq hs _

theorem readBlock_contig {np : NpArray α} {s : List Nat} {g : List Int → α} (h : np.Holds s g) (hc : np.CContig) :
    np.readBlock = .ok ((allIdx s).map g) := by
  unfold readBlock
  rw [block_contig h hc, h.shape, List.length_map, length_allIdx, if_pos rfl]

theorem toNDArray_contig {np : NpArray α} {s : List Nat} {g : List Int → α} (hs : GoodShape s) (h : np.Holds s g) (hc : np.CContig) :
    np.toNDArray = .ok (arr s g) := by
  unfold toNDArray
  rw [readBlock_contig h hc, h.shape, new_eq hs]
  simp only [Out.ok_bind, NDArray.copyIn, List.length_map, length_allIdx, arrO_data_length, le_refl, if_true]
  rw [List.drop_eq_nil_of_le (by rw [arrO_data_length]), List.append_nil, List.map_map]
  rfl

theorem block_same {np np' : NpArray α} (h : np.Same np') (hc : np.CContig) (hc' : np'.CContig) :
    np.shape = np'.shape ∧ np.block = np'.block := by
  obtain ⟨s, g, -, h1, h2⟩ := h
  exact ⟨by rw [h1.shape, h2.shape], by rw [block_contig h1 hc, block_contig h2 hc']⟩

end NpArray
end HL

namespace HL
variable {α : Type}

theorem vec_block {ds : List Nat} : (allIdx [ds.length]).map (fun j : List Int => ((ds.getD (j.getD 0 0).toNat 0 : Nat) : Int)) = ds.map (fun d : Nat => (d : Int)) := by
  have h1 : allIdx [ds.length] = (List.range ds.length).map (fun i : Nat => [(i : Int)]) := by
    simp only [allIdx, List.map_cons, List.map_nil]
    rw [List.flatMap_def, show (fun i : Nat => [[(i : Int)]]) = (fun x => [x]) ∘ (fun i : Nat => [(i : Int)]) from rfl, ← List.map_map,
      ← List.flatMap_def, List.flatMap_singleton']
  rw [h1, List.map_map]
  apply List.ext_getElem?
  intro k
  simp only [List.getElem?_map]
  by_cases hk : k < ds.length
  · simp [hk]
  · simp [hk]

theorem mapM_out_congr {β γ : Type} {f : β → Out γ} {l l' : List β} (h : List.Forall₂ (fun a b => f a = f b) l l') : l.mapM f = l'.mapM f := by
  induction h with
  | nil => rfl
  | cons h1 _ ih => rw [List.mapM_cons, List.mapM_cons, h1, ih]

theorem enterAll_congr : ∀ (m : List (Int × Nat)) (is : List (List Int)) {as as' : List (NDArray α)},
    as.map NDArray.sizes = as'.map NDArray.sizes → Micro.enterAll m is as = Micro.enterAll m is as'
  | _, [], as, as', _ => by cases as <;> cases as' <;> rfl
  | m, i :: is, [], [], _ => rfl
  | m, i :: is, [], _ :: _, h => by simp at h
  | m, i :: is, _ :: _, [], h => by simp at h
  | m, i :: is, a :: as, a' :: as', h => by
    simp only [List.map_cons, List.cons.injEq] at h
    have hd : a.dim = a'.dim := by simp [NDArray.dim, h.1]
    simp only [Micro.enterAll]
    by_cases hi : i.length ≠ a'.dim
    · rw [if_pos (hd ▸ hi), if_pos hi]
    · rw [if_neg (hd ▸ hi), if_neg hi, h.1]
      congr 1
      funext m'
      exact enterAll_congr m' is h.2

/-- An array whose memory is gone. -/
def gone (s : List Nat) : NDArray α := { sizes := s, offsets := offs s, storageSize := prodSizes s, data := [] }

theorem gone_get {s : List Nat} {v : List Int} (h : InRange s v) : (gone s : NDArray α).get v = .ub .oob := by
  obtain ⟨k, hk, -, -⟩ := getElem_rank h
  unfold NDArray.get gone
  simp only [offset_eq_rank (inRange_length h), Out.ok_bind, hk, List.length_nil]
  rw [if_neg (by simp)]

theorem minArr_gone (N : Num α) {s : List Nat} (hg : GoodShape s) : minArr N (gone s) = .ub .oob := by
  unfold minArr
  have h2 : (gone s : NDArray α).sizes = s := rfl
  rw [h2, forIndex_eq hg]
  have hpos : 0 < (allIdx s).length := by rw [length_allIdx]; exact prodSizes_pos hg.2
  cases hl : allIdx s with
  | nil => rw [hl] at hpos; simp at hpos
  | cons v l =>
    have hv : InRange s v := mem_allIdx.mp (by rw [hl]; simp)
    rw [List.foldlM_cons, gone_get hv]
    rfl

/-- An array that holds `m.2`, or whose memory is gone. -/
def Backs (a : NDArray α) (m : List Nat × (List Int → α)) : Prop := a = arr m.1 m.2 ∨ a = gone m.1

theorem Backs.sizes {a : NDArray α} {m : List Nat × (List Int → α)} (h : Backs a m) : a.sizes = m.1 := by
  rcases h with rfl | rfl <;> rfl

theorem checkNonneg_gone (N : Num α) (hN : MinOK N) {as : List (NDArray α)} {ms : List (List Nat × (List Int → α))}
    (hb : List.Forall₂ Backs as ms) (hg : ∀ m ∈ ms, GoodShape m.1) (hn : ∀ m ∈ ms, ∀ j, InRange m.1 j → N.lt (m.2 j) N.zero = false)
    (hx : ∃ a ∈ as, ∃ s, a = gone s) : Micro.checkNonneg N as = .ub .oob := by
  induction hb with
  | nil => simp at hx
  | @cons a m as ms h1 h2 ih =>
    simp only [Micro.checkNonneg]
    rcases h1 with rfl | rfl
    · rw [minArr_eq N (hg m (by simp)), foldl_map_min]
      simp only [Out.ok_bind]
      rw [hN]
      rw [if_neg]
      · refine ih (fun m hm => hg m (by simp [hm])) (fun m hm => hn m (by simp [hm])) ?_
        obtain ⟨a, ha, s, rfl⟩ := hx
        rcases List.mem_cons.mp ha with ha | ha
        · exfalso
          have h3 := congrArg (fun x : NDArray α => x.data.length) ha
          have h4 := congrArg (fun x : NDArray α => x.sizes) ha
          simp only [gone, arr, arrO_data_length, List.length_nil] at h3
          exact absurd (prodSizes_pos (hg m (by simp)).2) (by omega)
        · exact ⟨_, ha, s, rfl⟩
      · simp only [List.any_eq_true, List.mem_map, not_exists, not_and, Bool.not_eq_true]
        rintro x ⟨j, hj, rfl⟩
        exact hn m (by simp) j (mem_allIdx.mp hj)
    · rw [minArr_gone N (hg m (by simp))]
      rfl

theorem new_gone (fp : FP) (N : Num α) (hN : MinOK N) {s : List Nat} {P : Prob α} (h : ProbShape s P)
    (hn : ∀ p ∈ P, ∀ j, InRange (projSizes p.1 s) j → N.lt (p.2 j) N.zero = false) {as : List (NDArray α)}
    (hb : List.Forall₂ (fun a (p : List Nat × (List Int → α)) => Backs a (projSizes p.1 s, p.2)) as P) (hx : ∃ a ∈ as, ∃ s, a = gone s) {β : Type} :
    Micro.new (β := β) fp N (indicesOf P) as = .ub .oob := by
  obtain ⟨m', h1, h2, h3⟩ := shape_stage h
  have hlen : as.length = P.length := hb.length_eq
  have hsz : as.map NDArray.sizes = (marginalsOf s P).map NDArray.sizes := by
    clear hx hlen h1 h2 h3 h hn
    induction hb with
    | nil => rfl
    | cons h1 _ ih =>
      simp only [marginalsOf, List.map_cons, List.cons.injEq] at ih ⊢
      exact ⟨h1.sizes, ih⟩
  unfold Micro.new
  rw [if_neg (by have := h.lists; simp [indicesOf, hlen]; omega), enterAll_congr _ _ hsz, h1]
  simp only [Out.ok_bind]
  rw [if_neg (by have := h.two; omega)]
  have hb' : List.Forall₂ Backs as (P.map (fun p => (projSizes p.1 s, p.2))) := by
    rw [List.forall₂_map_right_iff]; exact hb
  rw [checkNonneg_gone N hN hb' ?_ ?_ hx]
  · rfl
  · intro m hm
    obtain ⟨p, hp, rfl⟩ := List.mem_map.mp hm
    exact h.goodP hp
  · intro m hm
    obtain ⟨p, hp, rfl⟩ := List.mem_map.mp hm
    exact hn p hp

end HL
