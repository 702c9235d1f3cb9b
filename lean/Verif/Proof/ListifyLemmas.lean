import Verif.Proof.ArrayLemmas
import Verif.Model.PyFlatten

/-
listify and flatten.
-/

namespace HL

/-- the table of the rows `R`, one column per dimension, padded with zeros to `pop` rows -/
def tableOf (dim pop : Nat) (offset : Int) (R : List (List Int)) : List (List Int) :=
  (List.range dim).map (fun d => R.map (fun v => offset + v.getD d 0) ++ List.replicate (pop - R.length) 0)

theorem writeRow_eq (offset : Int) (p : Nat) : ∀ (cols : List (List Int)) (idx : List Int),
    idx.length = cols.length → (∀ c ∈ cols, p < c.length) →
    writeRow offset p cols idx =
      .ok ((List.range cols.length).map (fun d => (cols.getD d []).set p (offset + idx.getD d 0)))
  | [], _, _, _ => rfl
  | c :: cols, [], h, _ => by simp at h
  | c :: cols, i :: is, h, hp => by
    simp only [writeRow]
    rw [if_pos (hp c (by simp)), writeRow_eq offset p cols is (by simpa using h)
      (fun c hc => hp c (by simp [hc]))]
    simp [List.range_succ_eq_map]

theorem writeRow_oob (offset : Int) (p : Nat) : ∀ (cols : List (List Int)) (idx : List Int),
    idx.length = cols.length → cols ≠ [] → (∀ c ∈ cols, c.length ≤ p) →
    writeRow offset p cols idx = .ub .oob
  | [], _, _, h, _ => absurd rfl h
  | c :: cols, [], h, _, _ => by simp at h
  | c :: cols, i :: is, _, _, hp => by
    simp only [writeRow]
    rw [if_neg (by have := hp c (by simp); omega)]

theorem tableOf_step {dim pop : Nat} {offset : Int} {R : List (List Int)} {idx : List Int}
    (hl : idx.length = dim) (hp : R.length < pop) :
    writeRow offset R.length (tableOf dim pop offset R) idx = .ok (tableOf dim pop offset (R ++ [idx])) := by
  rw [writeRow_eq _ _ _ _ (by simp [tableOf, hl])]
  · congr 1
    unfold tableOf
    simp only [List.length_map, List.length_range]
    apply List.map_congr_left
    intro d hd
    have hd' : d < dim := by simpa using hd
    have hk : pop - R.length = (pop - (R ++ [idx]).length) + 1 := by simp; omega
    have : (List.map (fun d => R.map (fun v => offset + v.getD d 0) ++ List.replicate (pop - R.length) 0)
        (List.range dim)).getD d [] =
        R.map (fun v => offset + v.getD d 0) ++ List.replicate (pop - R.length) 0 := by
      simp [List.getD_eq_getElem?_getD, hd']
    rw [this, hk, List.replicate_succ, List.set_append_right _ _ (by simp)]
    simp
  · intro c hc
    simp only [tableOf, List.mem_map] at hc
    obtain ⟨d, _, rfl⟩ := hc
    simp; omega

theorem writeRows_eq {dim pop : Nat} {offset : Int} {idx : List Int} (hl : idx.length = dim) :
    ∀ (n : Nat) (R : List (List Int)), R.length + n ≤ pop →
    writeRows offset idx n (tableOf dim pop offset R, R.length) =
      .ok (tableOf dim pop offset (R ++ List.replicate n idx), (R ++ List.replicate n idx).length)
  | 0, R, _ => by simp [writeRows]
  | n + 1, R, h => by
    simp only [writeRows]
    rw [tableOf_step hl (by omega)]
    simp only [Out.ok_bind]
    have := writeRows_eq (offset := offset) hl n (R ++ [idx]) (pop := pop) (by simp; omega)
    rw [List.length_append, List.length_singleton] at this
    rw [this]
    simp [List.replicate_succ]

theorem writeRows_oob {dim pop : Nat} {offset : Int} {idx : List Int} (hl : idx.length = dim)
    (hdim : 0 < dim) : ∀ (n : Nat) (R : List (List Int)), R.length ≤ pop → pop < R.length + n →
    writeRows offset idx n (tableOf dim pop offset R, R.length) = .ub .oob
  | 0, R, h1, h2 => by omega
  | n + 1, R, h1, h2 => by
    simp only [writeRows]
    by_cases h : R.length < pop
    · rw [tableOf_step hl h]
      simp only [Out.ok_bind]
      have := writeRows_oob (offset := offset) hl hdim n (R ++ [idx]) (pop := pop) (by simp; omega) (by simp; omega)
      rw [List.length_append, List.length_singleton] at this
      exact this
    · rw [writeRow_oob]
      · rfl
      · simp [tableOf, hl]
      · simp [tableOf]; omega
      · intro c hc
        simp only [tableOf, List.mem_map] at hc
        obtain ⟨d, _, rfl⟩ := hc
        simp; omega

/-- the rows of the table: every index repeated as often as its cell says -/
def rowsOf (L : List (List Int)) (g : List Int → Int) : List (List Int) :=
  L.flatMap (fun v => List.replicate (g v).toNat v)

theorem length_rowsOf (L : List (List Int)) (g : List Int → Int) :
    (rowsOf L g).length = (L.map (fun v => (g v).toNat)).sum := by
  simp [rowsOf, List.length_flatMap]

theorem listify_fold {s : List Nat} (g : List Int → Int) (offset : Int) (pop : Nat) :
    ∀ (L : List (List Int)), (∀ v ∈ L, InRange s v) → ∀ R : List (List Int),
    R.length + (rowsOf L g).length ≤ pop →
    L.foldlM (fun (t : List (List Int) × Nat) idx => do
      let n ← (arr s g).get idx
      writeRows offset idx n.toNat t) (tableOf s.length pop offset R, R.length) =
    .ok (tableOf s.length pop offset (R ++ rowsOf L g), (R ++ rowsOf L g).length)
  | [], _, R, _ => by simp [rowsOf]
  | v :: L, hL, R, h => by
    have hv := hL v (by simp)
    have hsplit : rowsOf (v :: L) g = List.replicate (g v).toNat v ++ rowsOf L g := by simp [rowsOf]
    rw [hsplit] at h ⊢
    simp only [List.length_append, List.length_replicate] at h
    rw [List.foldlM_cons, get_arr hv]
    simp only [Out.ok_bind]
    rw [writeRows_eq (inRange_length hv) _ _ (by omega)]
    simp only [Out.ok_bind]
    rw [listify_fold g offset pop L (fun v hv => hL v (by simp [hv])) _ (by simp; omega)]
    simp [List.append_assoc]

theorem listify_fold_oob {s : List Nat} (hdim : 0 < s.length) (g : List Int → Int) (offset : Int) (pop : Nat) :
    ∀ (L : List (List Int)), (∀ v ∈ L, InRange s v) → ∀ R : List (List Int),
    R.length ≤ pop → pop < R.length + (rowsOf L g).length →
    L.foldlM (fun (t : List (List Int) × Nat) idx => do
      let n ← (arr s g).get idx
      writeRows offset idx n.toNat t) (tableOf s.length pop offset R, R.length) = .ub .oob
  | [], _, R, _, h => by simp [rowsOf] at h; omega
  | v :: L, hL, R, h1, h2 => by
    have hv := hL v (by simp)
    have hsplit : rowsOf (v :: L) g = List.replicate (g v).toNat v ++ rowsOf L g := by simp [rowsOf]
    rw [hsplit] at h2
    simp only [List.length_append, List.length_replicate] at h2
    rw [List.foldlM_cons, get_arr hv]
    simp only [Out.ok_bind]
    by_cases h : R.length + (g v).toNat ≤ pop
    · rw [writeRows_eq (inRange_length hv) _ _ h]
      simp only [Out.ok_bind]
      exact listify_fold_oob hdim g offset pop L (fun v hv => hL v (by simp [hv])) _
        (by simpa using h) (by simp; omega)
    · rw [writeRows_oob (inRange_length hv) hdim _ _ h1 (by omega)]
      rfl

theorem listify_eq {s : List Nat} (hg : GoodShape s) (g : List Int → Int) (offset : Int) {pop : Nat}
    (hp : pop < 2 ^ 61) (h : (rowsOf (allIdx s) g).length ≤ pop) :
    listify pop (arr s g) offset = .ok (tableOf s.length pop offset (rowsOf (allIdx s) g)) := by
  unfold listify
  have h2 : (arr s g).sizes = s := rfl
  have h3 : (arr s g).dim = s.length := rfl
  rw [if_neg (by omega), h2, forIndex_eq hg, h3]
  have := listify_fold (s := s) g offset pop (allIdx s) (fun v hv => mem_allIdx.mp hv) [] (by simpa using h)
  have e : tableOf s.length pop offset [] = List.replicate s.length (List.replicate pop 0) := by
    simp [tableOf]
  rw [e] at this
  simp only [List.length_nil] at this
  rw [this]
  simp

theorem listify_oob {s : List Nat} (hg : GoodShape s) (g : List Int → Int) (offset : Int) {pop : Nat}
    (hp : pop < 2 ^ 61) (h : pop < (rowsOf (allIdx s) g).length) :
    listify pop (arr s g) offset = .ub .oob := by
  unfold listify
  have h2 : (arr s g).sizes = s := rfl
  have h3 : (arr s g).dim = s.length := rfl
  rw [if_neg (by omega), h2, forIndex_eq hg, h3]
  have := listify_fold_oob (s := s) (List.length_pos_iff.mpr hg.1) g offset pop (allIdx s)
    (fun v hv => mem_allIdx.mp hv) [] (by simp) (by simpa using h)
  have e : tableOf s.length pop offset [] = List.replicate s.length (List.replicate pop 0) := by
    simp [tableOf]
  rw [e] at this
  simp only [List.length_nil] at this
  rw [this]
  simp

theorem flattenPop_eq {s : List Nat} (hg : GoodShape s) (g : List Int → Int) :
    flattenPop (arr s g) = .ok ((∑ v ∈ cells s, g v) % 2 ^ 64).toNat := by
  unfold flattenPop
  have h2 : (arr s g).sizes = s := rfl
  rw [h2, forIndex_eq hg]
  have key : ∀ (L : List (List Int)) (p : Int), (∀ v ∈ L, InRange s v) →
      L.foldlM (fun (p : Int) idx => do
        let v ← (arr s g).get idx
        pure ((p + v) % 2 ^ 64)) (p % 2 ^ 64) = Out.ok ((p + (L.map g).sum) % 2 ^ 64) := by
    intro L
    induction L with
    | nil => intro p _; simp
    | cons v L ih =>
      intro p hL
      rw [List.foldlM_cons, get_arr (hL v (by simp))]
      simp only [Out.ok_bind, Out.pure_eq]
      rw [Int.emod_add_emod]
      refine (ih _ (fun v hv => hL v (by simp [hv]))).trans ?_
      simp [add_assoc]
  have := key (allIdx s) 0 (fun v hv => mem_allIdx.mp hv)
  rw [Int.zero_emod] at this
  rw [this]
  simp only [Out.ok_bind, Out.pure_eq, zero_add]
  rw [sum_allIdx]

theorem length_rowsOf_allIdx (s : List Nat) (g : List Int → Int) :
    (((rowsOf (allIdx s) g).length : Nat) : Int) = ∑ v ∈ cells s, max (g v) 0 := by
  rw [length_rowsOf, ← sum_allIdx]
  induction allIdx s with
  | nil => simp
  | cons v L ih => simp [ih]

end HL
