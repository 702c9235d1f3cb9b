import Verif.Proof.IndexLemmas
import Verif.Model.Utils
import Mathlib.Algebra.BigOperators.Group.List.Basic
import Mathlib.Algebra.BigOperators.Group.Finset.Basic

/-
Addressing, reading and writing of NDArray in terms of the function an array holds.
-/

namespace HL
variable {α : Type}

/-- The strides of a row-major array. -/
def offs (s : List Nat) : List Nat := (List.range s.length).map (fun i => prodSizes (s.drop (i + 1)))

@[simp] theorem offs_nil : offs [] = [] := rfl

@[simp] theorem offs_cons (n : Nat) (s : List Nat) : offs (n :: s) = prodSizes s :: offs s := by
  simp only [offs, List.length_cons, List.range_succ_eq_map, List.map_cons, List.map_map]
  rfl

theorem arrO_offsets (s : List Nat) (g : List Int → Option α) : (arrO s g).offsets = offs s := rfl

theorem prodSizes_pos {s : List Nat} (h : ∀ n ∈ s, 0 < n) : 0 < prodSizes s := by
  induction s with
  | nil => simp [prodSizes]
  | cons n s ih =>
    simp only [prodSizes]
    exact Nat.mul_pos (h n (by simp)) (ih (fun m hm => h m (by simp [hm])))

theorem computeOffsets_eq {s : List Nat} (h : ∀ n ∈ s, 0 < n) :
    NDArray.computeOffsets (prodSizes s) s = .ok (offs s) := by
  induction s with
  | nil => rfl
  | cons n s ih =>
    have hn : 0 < n := h n (by simp)
    simp only [NDArray.computeOffsets, prodSizes, Nat.mul_div_cancel_left _ hn,
      ih (fun m hm => h m (by simp [hm])), offs_cons]
    simp [hn.ne']

/-- position of a multi-index in the row-major enumeration -/
def rank : List Nat → List Int → Int
  | _ :: s, i :: v => (prodSizes s : Int) * i + rank s v
  | _, _ => 0

theorem offset_eq_rank {s : List Nat} {v : List Int} (h : v.length = s.length) :
    NDArray.offset (offs s) v = .ok (rank s v) := by
  induction s generalizing v with
  | nil => simp [NDArray.offset, rank]
  | cons n s ih =>
    cases v with
    | nil => simp at h
    | cons i v =>
      simp only [offs_cons, NDArray.offset, ih (v := v) (by simpa using h), rank]
      rfl

theorem range_mul (n P : Nat) :
    ((List.range n).flatMap fun i => (List.range P).map (fun j => P * i + j)) = List.range (n * P) := by
  induction n with
  | zero => simp
  | succ n ih =>
    rw [List.range_succ, List.flatMap_append, ih, Nat.succ_mul, List.range_add]
    simp [Nat.mul_comm]

theorem map_rank (s : List Nat) :
    (allIdx s).map (rank s) = (List.range (prodSizes s)).map (fun k : Nat => (k : Int)) := by
  induction s with
  | nil => rfl
  | cons n s ih =>
    simp only [allIdx, List.map_flatMap, List.map_map, prodSizes]
    rw [← range_mul, List.map_flatMap]
    congr 1
    funext i
    have : ((rank (n :: s)) ∘ fun x => (i : Int) :: x) = (fun k => (prodSizes s : Int) * i + k) ∘ (rank s) := by
      funext v; rfl
    rw [this, ← List.map_map, ih]
    simp only [List.map_map]
    congr 1

theorem rank_of_getElem {s : List Nat} {k : Nat} {v : List Int} (h : (allIdx s)[k]? = some v) :
    rank s v = k := by
  have h1 : ((allIdx s).map (rank s))[k]? = some (rank s v) := by simp [h]
  rw [map_rank] at h1
  simp only [List.getElem?_map, Option.map_eq_some_iff] at h1
  obtain ⟨a, ha, hb⟩ := h1
  have hk : k < prodSizes s := by
    have := List.getElem?_eq_some_iff.mp ha
    simpa using this.1
  rw [List.getElem?_range hk] at ha
  injection ha with ha
  rw [← hb, ha]

theorem getElem_rank {s : List Nat} {v : List Int} (h : InRange s v) :
    ∃ k : Nat, rank s v = k ∧ k < prodSizes s ∧ (allIdx s)[k]? = some v := by
  obtain ⟨k, hk, hv⟩ := List.getElem_of_mem (mem_allIdx.mpr h)
  have h1 : (allIdx s)[k]? = some v := by rw [List.getElem?_eq_getElem hk, hv]
  exact ⟨k, rank_of_getElem h1, by rw [← length_allIdx]; exact hk, h1⟩

theorem arrO_congr {s : List Nat} {g h : List Int → Option α} (he : ∀ v, InRange s v → g v = h v) :
    arrO s g = arrO s h := by
  unfold arrO
  congr 1
  exact List.map_congr_left (fun v hv => he v (mem_allIdx.mp hv))

theorem arr_congr {s : List Nat} {g h : List Int → α} (he : ∀ v, InRange s v → g v = h v) :
    arr s g = arr s h := arrO_congr (fun v hv => by rw [he v hv])

/-- Two arrays of equal shape are equal exactly when they agree on every cell. -/
theorem arr_inj {s : List Nat} {g h : List Int → α} (he : arr s g = arr s h) :
    ∀ v, InRange s v → g v = h v := by
  intro v hv
  have : (allIdx s).map (fun v => some (g v)) = (allIdx s).map (fun v => some (h v)) := by
    have := congrArg NDArray.data he
    exact this
  have := List.map_inj_left.mp this v (mem_allIdx.mpr hv)
  simpa using this

theorem getO_arr {s : List Nat} {g : List Int → Option α} {v : List Int} (h : InRange s v) :
    (arrO s g).get v = match g v with | some x => .ok x | none => .ub .uninit := by
  obtain ⟨k, hk, hlt, hv⟩ := getElem_rank h
  unfold NDArray.get
  rw [arrO_offsets, offset_eq_rank (inRange_length h), hk]
  have hlt' : k < (allIdx s).length := by rw [length_allIdx]; exact hlt
  simp only [Out.ok_bind]
  have : (arrO s g).data = (allIdx s).map g := rfl
  rw [this]
  simp only [List.length_map, Int.toNat_natCast, List.getD_eq_getElem?_getD, List.getElem?_map, hv]
  rw [if_pos ⟨by omega, by exact_mod_cast hlt'⟩]
  cases hgv : g v <;> simp [hgv]

theorem get_arr {s : List Nat} {g : List Int → α} {v : List Int} (h : InRange s v) :
    (arr s g).get v = .ok (g v) := by
  unfold arr; rw [getO_arr h]

theorem setO_arr {s : List Nat} {g : List Int → Option α} {v : List Int} (h : InRange s v) (x : α) :
    (arrO s g).set v x = .ok (arrO s (Function.update g v (some x))) := by
  obtain ⟨k, hk, hlt, hv⟩ := getElem_rank h
  unfold NDArray.set
  rw [arrO_offsets, offset_eq_rank (inRange_length h), hk]
  have hlt' : k < (allIdx s).length := by rw [length_allIdx]; exact hlt
  simp only [Out.ok_bind]
  have hd : (arrO s g).data = (allIdx s).map g := rfl
  rw [hd]
  simp only [List.length_map, Int.toNat_natCast]
  rw [if_pos ⟨by omega, by exact_mod_cast hlt'⟩]
  have : ((allIdx s).map g).set k (some x) = (allIdx s).map (Function.update g v (some x)) := by
    apply List.ext_getElem?
    intro i
    rw [List.getElem?_set]
    by_cases hik : k = i
    · subst hik
      rw [List.getElem?_map, hv, if_pos rfl, if_pos (by simpa using hlt')]
      simp
      exact ⟨v, hv, by simp⟩
    · simp only [hik, if_false]
      rw [List.getElem?_map, List.getElem?_map]
      cases hi : (allIdx s)[i]? with
      | none => rfl
      | some w =>
        have hne : w ≠ v := by
          intro hwv
          have h1 := rank_of_getElem hi
          rw [hwv, hk] at h1
          omega
        simp [Function.update_of_ne hne]
  rw [this]
  rfl

theorem set_arr {s : List Nat} {g : List Int → α} {v : List Int} (h : InRange s v) (x : α) :
    (arr s g).set v x = .ok (arr s (Function.update g v x)) := by
  unfold arr; rw [setO_arr h]
  congr 2
  funext w
  by_cases hw : w = v
  · subst hw; simp
  · simp [Function.update_of_ne hw]

theorem modify_arr {s : List Nat} {g : List Int → α} {v : List Int} (h : InRange s v) (f : α → α) :
    (arr s g).modify v f = .ok (arr s (Function.update g v (f (g v)))) := by
  unfold NDArray.modify
  rw [get_arr h]
  exact set_arr h _

theorem arrO_data_length (s : List Nat) (g : List Int → Option α) :
    (arrO s g).data.length = prodSizes s := by
  simp [arrO, length_allIdx]

theorem map_const_replicate {β γ : Type} (l : List β) (x : γ) :
    l.map (fun _ => x) = List.replicate l.length x := by
  induction l with
  | nil => rfl
  | cons a l ih => simp [List.replicate_succ]

theorem resize_eq {s : List Nat} (hg : GoodShape s) {a : NDArray α} (h : a.storageSize < prodSizes s) :
    a.resize s = .ok (arrO s (fun _ => none)) := by
  cases s with
  | nil => exact absurd rfl hg.1
  | cons n s =>
    simp only [NDArray.resize, computeOffsets_eq hg.2, h, gt_iff_lt, if_true, Out.ok_bind, Out.pure_eq]
    unfold arrO
    rw [map_const_replicate, length_allIdx]
    rfl

theorem resize_same {s : List Nat} (hg : GoodShape s) (g : List Int → Option α) :
    (arrO s g).resize s = .ok (arrO s g) := by
  cases s with
  | nil => exact absurd rfl hg.1
  | cons n s =>
    have : ¬ (prodSizes (n :: s) > (arrO (n :: s) g).storageSize) := by simp [arrO]
    simp only [NDArray.resize, computeOffsets_eq hg.2, this, if_false, Out.ok_bind, Out.pure_eq]
    rfl

theorem new_eq {s : List Nat} (hg : GoodShape s) :
    (NDArray.new s : Out (NDArray α)) = .ok (arrO s (fun _ => none)) :=
  resize_eq hg (prodSizes_pos hg.2)

theorem wrap_eq {s : List Nat} (hg : GoodShape s) (g : List Int → Option α) :
    NDArray.wrap s ((allIdx s).map g) = .ok (arrO s g) := by
  cases s with
  | nil => exact absurd rfl hg.1
  | cons n s =>
    simp only [NDArray.wrap, computeOffsets_eq hg.2, Out.ok_bind, Out.pure_eq]
    rfl

theorem assign_eq (s : List Nat) (g : List Int → Option α) (x : α) :
    (arrO s g).assign x = .ok (arr s (fun _ => x)) := by
  unfold NDArray.assign
  rw [arrO_data_length]
  simp only [arrO, le_refl, if_true, arr]
  rw [List.drop_eq_nil_of_le (by simp [length_allIdx]), map_const_replicate, length_allIdx]
  simp

theorem mapM_ok {β γ : Type} {f : β → Out γ} {h : β → γ} {l : List β}
    (hf : ∀ x ∈ l, f x = .ok (h x)) : l.mapM f = .ok (l.map h) := by
  induction l with
  | nil => rfl
  | cons a l ih =>
    rw [List.mapM_cons, hf a (by simp), ih (fun x hx => hf x (by simp [hx]))]
    rfl

theorem readAll_eq (s : List Nat) (g : List Int → α) :
    (arr s g).readAll = .ok ((allIdx s).map g) := by
  unfold NDArray.readAll arr
  rw [arrO_data_length]
  have h1 : (arrO s fun v => some (g v)).storageSize = prodSizes s := rfl
  have h2 : (arrO s fun v => some (g v)).data = (allIdx s).map (fun v => some (g v)) := rfl
  rw [h1, h2, if_pos le_rfl, List.take_of_length_le (by simp [length_allIdx])]
  rw [List.mapM_map, mapM_ok (h := g)]
  intro v _
  rfl

theorem copyIn_eq (s : List Nat) (g : List Int → Option α) (h : List Int → α) :
    (arrO s g).copyIn ((allIdx s).map h) = .ok (arr s h) := by
  unfold NDArray.copyIn
  rw [arrO_data_length]
  simp only [List.length_map, length_allIdx, le_refl, if_true, List.map_map]
  rw [List.drop_eq_nil_of_le (by rw [arrO_data_length])]
  simp [arr, arrO, Function.comp_def]

theorem copy_empty {s : List Nat} (hg : GoodShape s) (g : List Int → α) :
    NDArray.copy (arr s g) NDArray.empty = .ok (arr s g) := by
  unfold NDArray.copy
  have : (arr s g).sizes = s := rfl
  rw [this, resize_eq hg (prodSizes_pos hg.2), readAll_eq]
  exact copyIn_eq s _ g

theorem copy_same {s : List Nat} (hg : GoodShape s) (g : List Int → α) (h : List Int → Option α) :
    NDArray.copy (arr s g) (arrO s h) = .ok (arr s g) := by
  unfold NDArray.copy
  have : (arr s g).sizes = s := rfl
  rw [this, resize_same hg, readAll_eq]
  exact copyIn_eq s _ g

/-! ### Folds -/

theorem foldlM_ok {β σ : Type} {f : σ → β → Out σ} {h : σ → β → σ} {l : List β} (I : σ → Prop)
    (hf : ∀ x ∈ l, ∀ s, I s → f s x = .ok (h s x) ∧ I (h s x)) {s : σ} (hs : I s) :
    l.foldlM f s = .ok (l.foldl h s) ∧ I (l.foldl h s) := by
  induction l generalizing s with
  | nil => exact ⟨rfl, hs⟩
  | cons a l ih =>
    obtain ⟨h1, h2⟩ := hf a (by simp) s hs
    rw [List.foldlM_cons, h1]
    exact ih (fun x hx => hf x (by simp [hx])) h2

theorem foldlM_ok' {β σ : Type} {f : σ → β → Out σ} {h : σ → β → σ} {l : List β}
    (hf : ∀ x ∈ l, ∀ s, f s x = .ok (h s x)) {s : σ} :
    l.foldlM f s = .ok (l.foldl h s) :=
  (foldlM_ok (fun _ => True) (fun x hx s _ => ⟨hf x hx s, trivial⟩) trivial).1

/-- Folding over a representation `R` of an abstract state. -/
theorem foldlM_repr {β σ τ : Type} {f : σ → β → Out σ} (R : τ → σ) {h : τ → β → τ} {l : List β}
    (hf : ∀ x ∈ l, ∀ t, f (R t) x = .ok (R (h t x))) (t : τ) :
    l.foldlM f (R t) = .ok (R (l.foldl h t)) := by
  induction l generalizing t with
  | nil => rfl
  | cons a l ih =>
    rw [List.foldlM_cons, hf a (by simp)]
    exact ih (fun x hx => hf x (by simp [hx])) _

theorem foldl_update {β κ γ : Type} [DecidableEq κ] (key : β → κ) (op : γ → β → γ) (l : List β)
    (S : κ → γ) (j : κ) :
    l.foldl (fun (S : κ → γ) v => Function.update S (key v) (op (S (key v)) v)) S j =
      (l.filter (fun v => key v = j)).foldl op (S j) := by
  induction l generalizing S with
  | nil => rfl
  | cons a l ih =>
    rw [List.foldl_cons, ih]
    by_cases h : key a = j
    · subst h; simp
    · simp [h, Function.update_of_ne (fun hh => h hh.symm)]

theorem foldl_set {κ γ : Type} [DecidableEq κ] (h : κ → γ) (l : List κ) (S : κ → γ) (j : κ) :
    l.foldl (fun (S : κ → γ) v => Function.update S v (h v)) S j = if j ∈ l then h j else S j := by
  induction l generalizing S with
  | nil => rfl
  | cons a l ih =>
    rw [List.foldl_cons, ih]
    by_cases hj : j ∈ l
    · simp [hj]
    · by_cases ha : j = a
      · subst ha; simp
      · simp [hj, ha, Function.update_of_ne ha]

theorem foldl_add_sum {β γ : Type} [AddCommMonoid γ] (g : β → γ) (l : List β) (a : γ) :
    l.foldl (fun acc v => acc + g v) a = a + (l.map g).sum := by
  induction l generalizing a with
  | nil => simp
  | cons x l ih => rw [List.foldl_cons, ih]; simp [add_assoc]

theorem sum_filter_allIdx {β : Type} [AddCommMonoid β] (s : List Nat) (p : List Int → Prop)
    [DecidablePred p] (f : List Int → β) :
    (((allIdx s).filter (fun v => p v)).map f).sum = ∑ v ∈ (cells s).filter p, f v := by
  unfold cells
  rw [← List.sum_toFinset _ ((nodup_allIdx s).filter _)]
  congr 1
  ext v; simp

theorem sum_allIdx {β : Type} [AddCommMonoid β] (s : List Nat) (f : List Int → β) :
    ((allIdx s).map f).sum = ∑ v ∈ cells s, f v := by
  unfold cells
  rw [List.sum_toFinset _ (nodup_allIdx s)]

/-! ### Utilities -/

theorem vecModify_eq {n : Nat} (S : Int → α) {i : Int} (h : 0 ≤ i ∧ i < n) (f : α → α) :
    vecModify ((List.range n).map (fun j : Nat => S j)) i f =
      .ok ((List.range n).map (fun j : Nat => Function.update S i (f (S i)) j)) := by
  unfold vecModify
  have h1 : 0 ≤ i ∧ i.toNat < ((List.range n).map (fun j : Nat => S j)).length := by
    simp; omega
  rw [dif_pos h1]
  congr 1
  apply List.ext_getElem
  · simp
  · intro k hk1 hk2
    simp only [List.getElem_map, List.getElem_range]
    rw [List.getElem_set]
    by_cases hk : i.toNat = k
    · have : (k : Int) = i := by omega
      have h2 : ((i.toNat : Nat) : Int) = i := by omega
      simp [hk, this, h2]
    · have : (k : Int) ≠ i := by omega
      simp [hk, Function.update_of_ne this]

/-- `reduce` along one dimension, for any element type: a left-to-right sum per position. -/
theorem reduce1_eq (N : Num α) {s : List Nat} (hg : GoodShape s) (g : List Int → α) {d : Nat}
    (hd : d < s.length) :
    reduce1 N (arr s g) d = .ok ((List.range (s.getD d 0)).map (fun j : Nat =>
      ((allIdx s).filter (fun v => v.getD d 0 = (j : Int))).foldl (fun acc v => N.add acc (g v)) N.zero)) := by
  unfold reduce1
  have h1 : (arr s g).dim = s.length := rfl
  have h2 : (arr s g).sizes = s := rfl
  rw [h1, h2, if_neg (by simpa using hd), forIndex_eq hg]
  have h0 : List.replicate (s.getD d 0) N.zero =
      (List.range (s.getD d 0)).map (fun j : Nat => (fun _ : Int => N.zero) j) := by
    rw [map_const_replicate]; simp
  rw [h0]
  refine (foldlM_repr (R := fun S : Int → α => (List.range (s.getD d 0)).map (fun j : Nat => S j))
    (h := fun S v => Function.update S (v.getD d 0) (N.add (S (v.getD d 0)) (g v))) ?_
    (fun _ => N.zero)).trans ?_
  rotate_left
  · congr 1
    apply List.map_congr_left
    intro j _
    exact foldl_update (fun v : List Int => v.getD d 0) (fun acc v => N.add acc (g v)) (allIdx s)
      (fun _ => N.zero) (j : Int)
  · intro v hv S
    have hr := mem_allIdx.mp hv
    rw [get_arr hr]
    simp only [Out.ok_bind]
    exact vecModify_eq S (inRange_getD hr hd) _

theorem mapM_checkDim {n : Nat} {dims : List Nat} (h : ∀ d ∈ dims, d < n) :
    (dims.map (fun d : Nat => (d : Int))).mapM (MappedIndex.checkDim n) = .ok dims := by
  rw [List.mapM_map, mapM_ok (h := id)]
  · simp
  · intro d hd
    have := h d hd
    simp only [Function.comp_apply, MappedIndex.checkDim, id]
    rw [if_pos (by omega)]
    simp

theorem mapped_new {s : List Nat} {idx : List Int} {e : Bool} {dims : List Nat}
    (h : ∀ d ∈ dims, d < s.length) :
    MappedIndex.new ⟨s, idx, e⟩ (dims.map (fun d : Nat => (d : Int))) =
      .ok ⟨dims, projSizes dims s, e⟩ := by
  unfold MappedIndex.new
  simp only []
  rw [mapM_checkDim h]
  rfl

theorem inRange_proj {s : List Nat} {v : List Int} {dims : List Nat} (h : ∀ d ∈ dims, d < s.length)
    (hv : InRange s v) : InRange (projSizes dims s) (proj dims v) := by
  unfold InRange projSizes proj
  rw [List.forall₂_map_left_iff, List.forall₂_map_right_iff, List.forall₂_same]
  intro d hd
  exact inRange_getD hv (h d hd)

theorem goodShape_projSizes {s : List Nat} {dims : List Nat} (hg : GoodShape s) (hne : dims ≠ [])
    (h : ∀ d ∈ dims, d < s.length) : GoodShape (projSizes dims s) := by
  refine ⟨by simpa [projSizes] using hne, ?_⟩
  intro n hn
  simp only [projSizes, List.mem_map] at hn
  obtain ⟨d, hd, rfl⟩ := hn
  have := h d hd
  rw [List.getD_eq_getElem?_getD, List.getElem?_eq_getElem this]
  exact hg.2 _ (List.getElem_mem _)

/-- `reduce` to the preserved dimensions, for any element type: a left-to-right sum per cell. -/
theorem reduceM_eq (dbg : Bool) (N : Num α) {s : List Nat} (hg : GoodShape s) (g : List Int → α)
    {dims : List Nat} (hne : dims ≠ []) (hd : ∀ d ∈ dims, d < s.length)
    (hlt : dbg = true → dims.length < s.length) :
    reduceM dbg N (arr s g) (dims.map (fun d : Nat => (d : Int))) =
      .ok (arr (projSizes dims s) (fun j =>
        ((allIdx s).filter (fun v => proj dims v = j)).foldl (fun acc v => N.add acc (g v)) N.zero)) := by
  unfold reduceM
  have h1 : (arr s g).dim = s.length := rfl
  have h2 : (arr s g).sizes = s := rfl
  rw [h1, h2, if_neg (by
    rintro ⟨hb, hn⟩
    exact hn (by simpa using hlt hb))]
  rw [mapM_checkDim hd]
  simp only [Out.ok_bind]
  have h3 : dims.map (fun d => s.getD d 0) = projSizes dims s := rfl
  rw [h3, new_eq (goodShape_projSizes hg hne hd)]
  simp only [Out.ok_bind, assign_eq, index_new hg.1, mapped_new hd]
  rw [forIndex_eq hg]
  rw [foldlM_repr (R := fun S : List Int → α => arr (projSizes dims s) S)
    (h := fun S v => Function.update S (proj dims v) (N.add (S (proj dims v)) (g v)))]
  · congr 1
    apply arr_congr
    intro j _
    exact foldl_update (fun v : List Int => proj dims v) (fun acc v => N.add acc (g v)) (allIdx s)
      (fun _ => N.zero) j
  · intro v hv S
    have hr := mem_allIdx.mp hv
    rw [get_arr hr]
    simp only [Out.ok_bind]
    exact modify_arr (inRange_proj hd hr) _

theorem sumArr_eq (N : Num α) (s : List Nat) (g : List Int → α) :
    sumArr N (arr s g) = .ok ((allIdx s).foldl (fun acc v => N.add acc (g v)) N.zero) := by
  unfold sumArr
  rw [readAll_eq]
  simp only [Out.ok_bind, sumVec, List.foldl_map, Out.pure_eq]

theorem minArr_eq (N : Num α) {s : List Nat} (hg : GoodShape s) (g : List Int → α) :
    minArr N (arr s g) =
      .ok ((allIdx s).foldl (fun m v => if N.lt (g v) m then g v else m) N.maxVal) := by
  unfold minArr
  have h2 : (arr s g).sizes = s := rfl
  rw [h2, forIndex_eq hg, foldlM_ok']
  intro v hv m
  rw [get_arr (mem_allIdx.mp hv)]
  rfl

end HL
