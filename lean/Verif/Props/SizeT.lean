import Verif.Model.SizeT
import Verif.Props.QIS

/-! Tables with very many cells (C84). -/

namespace HL
variable {α β : Type} {fp : FP}

theorem storage64_eq : ∀ {s : List Nat}, s ≠ [] → storage64 s = prodSizes s % 2 ^ 64
  | [], h => absurd rfl h
  | n :: s, _ => by
    have key : ∀ (s : List Nat) (m : Nat), s.foldl (fun m k => m * k % 2 ^ 64) (m % 2 ^ 64) = m * prodSizes s % 2 ^ 64 := by
      intro s
      induction s with
      | nil => intro m; simp [prodSizes]
      | cons k s ih =>
        intro m
        rw [List.foldl_cons, Nat.mod_mul_mod, ih, prodSizes, mul_assoc]
    exact key s n

theorem resizeW_small {mem : Nat → Bool} {s : List Nat} (hg : GoodShape s) (hs : prodSizes s < 2 ^ 64) {a : NDArray α}
    (ha : a.storageSize < prodSizes s) :
    a.resizeW mem s = if mem (prodSizes s) then a.resize s else .thrown .lengthError := by
  have hst : storage64 s = prodSizes s := by rw [storage64_eq hg.1, Nat.mod_eq_of_lt hs]
  cases s with
  | nil => exact absurd rfl hg.1
  | cons n s =>
    unfold NDArray.resizeW NDArray.resize
    simp only [hst]
    rw [if_pos ha, if_pos ha]

theorem computeOffsets_zero : ∀ {s : List Nat}, (∀ n ∈ s, 0 < n) → NDArray.computeOffsets 0 s = .ok (List.replicate s.length 0)
  | [], _ => rfl
  | n :: s, h => by
    unfold NDArray.computeOffsets
    rw [if_neg (h n (by simp)).ne', Nat.zero_div, computeOffsets_zero (fun k hk => h k (by simp [hk]))]
    rfl

/-- the array without storage that comes of a product of sizes wrapping to 0 -/
def nullArr (s : List Nat) : NDArray α := ⟨s, List.replicate s.length 0, 0, []⟩

theorem resizeW_null {mem : Nat → Bool} {s : List Nat} (hg : GoodShape s) (hs : 2 ^ 64 ∣ prodSizes s) :
    (NDArray.empty : NDArray α).resizeW mem s = .ok (nullArr s) := by
  have hst : storage64 s = 0 := by rw [storage64_eq hg.1]; exact Nat.mod_eq_zero_of_dvd hs
  cases s with
  | nil => exact absurd rfl hg.1
  | cons n s =>
    unfold NDArray.resizeW
    simp only [hst]
    rw [if_neg (by simp), computeOffsets_zero hg.2]
    rfl

theorem get_null (s : List Nat) (v : List Int) : (nullArr s : NDArray α).get v = .ub .oob := by
  have key : ∀ (n : Nat) (v : List Int), NDArray.offset (List.replicate n 0) v = .ok 0 ∨ NDArray.offset (List.replicate n 0) v = .ub .oob := by
    intro n
    induction n with
    | zero => intro v; exact Or.inl rfl
    | succ n ih =>
      intro v
      cases v with
      | nil => exact Or.inr rfl
      | cons i v =>
        rw [List.replicate_succ, NDArray.offset]
        rcases ih v with h | h <;> rw [h]
        · left; simp
        · exact Or.inr rfl
  unfold NDArray.get nullArr
  rcases key s.length v with h | h <;> rw [h]
  · simp
  · rfl

theorem newW_eq {mem : Nat → Bool} {N : Num α} {is : List (List Int)} {ms : List (NDArray α)} {m : Micro β α}
    (h : Micro.new fp N is ms = .ok m) :
    Micro.newW (β := β) mem fp N is ms = (do let a ← NDArray.empty.resizeW mem m.sizes; pure { m with array := a }) := by
  unfold Micro.new at h
  unfold Micro.newW
  split at h
  · cases h
  rename_i h0
  rw [if_neg h0]
  obtain ⟨x1, h1, h⟩ := Out.bind_eq_ok.mp h
  rw [h1]
  simp only [Out.ok_bind]
  split at h
  · cases h
  rename_i h0
  rw [if_neg h0]
  obtain ⟨x2, h2, h⟩ := Out.bind_eq_ok.mp h
  obtain ⟨x3, h3, h⟩ := Out.bind_eq_ok.mp h
  obtain ⟨x4, h4, h⟩ := Out.bind_eq_ok.mp h
  rw [h2]
  simp only [Out.ok_bind]
  rw [h3]
  simp only [Out.ok_bind]
  rw [h4]
  simp only [Out.ok_bind]
  cases ms with
  | nil => cases h
  | cons a rest =>
    simp only at h ⊢
    obtain ⟨x5, h5, h⟩ := Out.bind_eq_ok.mp h
    obtain ⟨x6, h6, h⟩ := Out.bind_eq_ok.mp h
    obtain ⟨x7, h7, h⟩ := Out.bind_eq_ok.mp h
    obtain ⟨x8, h8, h⟩ := Out.bind_eq_ok.mp h
    rw [h5]
    simp only [Out.ok_bind]
    rw [h6]
    simp only [Out.ok_bind]
    rw [h7]
    simp only [Out.ok_bind]
    rw [Out.pure_eq] at h
    injection h with h
    subst h
    rfl

/-- **C84** for a table of fewer than `2^64` cells: `qis` gives exactly the outcome of the model with unbounded sizes when the
memory for the table can be had, and throws otherwise. -/
theorem C84_small_partial (hfp : fp.Good) (lm : Libm) (mem : Nat → Bool) {s : List Nat} {P : Prob Int} {pop : Int} (h : ProbOK s P pop)
    (hpop : pop < 2 ^ 52) (hs : prodSizes s < 2 ^ 64) (skips : Int) :
    QIS.runW mem fp lm (indicesOf P) (marginalsOf s P) skips =
      if mem (prodSizes s) then QIS.run fp lm (indicesOf P) (marginalsOf s P) skips else .thrown .lengthError := by
  have hg := h.good
  have hp := prodSizes_pos hg.2
  unfold QIS.runW QIS.newW QIS.run QIS.new
  rw [newW_eq (micro_new_int hfp h hpop), micro_new_int hfp h hpop]
  simp only [Out.ok_bind]
  rw [show (mkMicro Int s P pop).sizes = s from rfl, resizeW_small hg hs (by exact hp)]
  cases hm : mem (prodSizes s)
  · rfl
  · simp only [if_true]
    rw [show (NDArray.empty : NDArray Int).resize s = .ok (arrO s (fun _ => none)) from resize_eq hg hp]
    simp only [Out.ok_bind, Out.pure_eq]
    rw [show ({ dim := (mkMicro Int s P pop).dim, sizes := s, indices := (mkMicro Int s P pop).indices, marginals := (mkMicro Int s P pop).marginals, population := (mkMicro Int s P pop).population, dimLookup := (mkMicro Int s P pop).dimLookup, array := arrO s fun _ => none } : Micro Int Int) = mkMicro Int s P pop from rfl]
    rw [show (arrO s fun _ => (none : Option Int)).sizes = s from rfl, resizeW_small hg hs (by exact hp), if_pos hm]
    have e0 : (NDArray.empty : NDArray Fl).resize s = .ok (arrO s (fun _ => none)) := resize_eq hg hp
    rw [e0]
    have e2 : (NDArray.empty : NDArray Fl).resize (mkMicro Int s P pop).array.sizes = .ok (arrO s (fun _ => none)) := resize_eq hg hp
    rw [e2]
    simp only [Out.ok_bind]
    rw [stateValues_eq h.toProbShape]
    simp only [Out.ok_bind]
    have e3 : NDArray.copyW mem (arr s (stateVal fp P)) NDArray.empty = NDArray.copy (arr s (stateVal fp P)) NDArray.empty := by
      unfold NDArray.copyW NDArray.copy
      rw [show (arr s (stateVal fp P)).sizes = s from rfl, resizeW_small hg hs (by exact hp), if_pos hm]
    rw [e3]

/-- **C84 fails**: for any accepted problem of at most 1111 dimensions whose number of cells is a multiple of `2^64`, `qis`
reaches through a null pointer, whatever the machine's memory. -/
theorem C84_negation (hfp : fp.Good) (lm : Libm) (mem : Nat → Bool) {s : List Nat} {P : Prob Int} {pop : Int} (h : ProbOK s P pop)
    (hpop : pop < 2 ^ 52) (hd : s.length ≤ 1111) (hs : 2 ^ 64 ∣ prodSizes s) {skips : Int} (h0 : 0 ≤ skips) (h1 : skips ≤ 2 ^ 31) :
    QIS.runW mem fp lm (indicesOf P) (marginalsOf s P) skips = .ub .oob := by
  have hg := h.good
  obtain ⟨c, hc⟩ : ∃ c, skipCount (skips % 2 ^ 32).toNat = .ok c := by
    rcases skipCount_cases (skips % 2 ^ 32).toNat with ⟨c, hc, -⟩ | ⟨hc, -⟩
    · exact ⟨c, hc⟩
    · omega
  obtain ⟨sb, hsb, ha, -⟩ := new_ok (dim := s.length) (by have := h.two; omega) hd
  obtain ⟨sb', hsk, -, -⟩ := skip_ok ha hc
  unfold QIS.runW QIS.newW
  rw [newW_eq (micro_new_int hfp h hpop)]
  rw [show (mkMicro Int s P pop).sizes = s from rfl, resizeW_null hg hs]
  simp only [Out.ok_bind, Out.pure_eq]
  rw [show (mkMicro Int s P pop).dim = s.length from rfl, hsb]
  simp only [Out.ok_bind]
  rw [hsk]
  simp only [Out.ok_bind]
  rw [show (nullArr s : NDArray Int).sizes = s from rfl, resizeW_null hg hs]
  simp only [Out.ok_bind]
  unfold QIS.computeStateValues
  rw [show (nullArr s : NDArray Int).sizes = s from rfl, index_new hg.1]
  simp only [Out.ok_bind]
  have hm := mappings_ok (s := s) (P := P) (fun p hp => (h.dims p hp).2)
  rw [show (mkMicro Int s P pop).indices = indicesOf P from rfl, show (zerosI s.length) = List.replicate s.length 0 from rfl, hm]
  simp only [Out.ok_bind]
  rw [show (nullArr s : NDArray Fl).assign (.fin 1) = .ok (nullArr s) from rfl]
  simp only [Out.ok_bind]
  rw [forIndex_eq hg]
  obtain ⟨v, hv⟩ := exists_inRange hg.2
  cases hl : allIdx s with
  | nil => rw [← mem_allIdx, hl] at hv; cases hv
  | cons w l =>
    have hw : InRange s w := mem_allIdx.mp (by rw [hl]; simp)
    rw [List.foldlM_cons]
    have : QIS.mulMarginals fp w (mapsOf s P) (mkMicro Int s P pop).marginals (nullArr s) = .ub .oob := by
      have hlist := h.lists
      cases P with
      | nil => simp at hlist
      | cons p P =>
        have e : QIS.mulMarginals fp w (mapsOf s (p :: P)) (mkMicro Int s (p :: P) pop).marginals (nullArr s) =
            ((arr (projSizes p.1 s) p.2).get (proj p.1 w) >>= fun x =>
              (nullArr s).modify w (fun y => fp.mul y (fp.ofInt x)) >>= fun a =>
                QIS.mulMarginals fp w (mapsOf s P) (marginalsOf s P) a) := rfl
        rw [e, get_arr (inRange_proj (h.dims p (by simp)).2 hw)]
        simp only [Out.ok_bind]
        unfold NDArray.modify
        rw [get_null]
        rfl
    unfold mapsOf at this
    rw [this]
    rfl

/-- Nested divisions of the storage keep every cell inside it. -/
theorem offsets_inside : ∀ {s : List Nat}, (∀ n ∈ s, 0 < n) → ∀ (m : Nat), ∃ os, NDArray.computeOffsets m s = .ok os ∧
    ∀ v, InRange s v → ∃ o : Int, NDArray.offset os v = .ok o ∧ 0 ≤ o ∧ (0 < m → o < m) ∧ (m = 0 → o = 0)
  | [], _, m => ⟨[], rfl, fun v hv => ⟨0, by cases hv; rfl, le_rfl, fun h => by exact_mod_cast h, fun _ => rfl⟩⟩
  | n :: s, h, m => by
    have hn := h n (by simp)
    obtain ⟨os, h1, h2⟩ := offsets_inside (s := s) (fun k hk => h k (by simp [hk])) (m / n)
    refine ⟨m / n :: os, ?_, ?_⟩
    · unfold NDArray.computeOffsets
      rw [if_neg hn.ne', h1]
      rfl
    · intro v hv
      cases hv with
      | @cons _ i _ v hi hv =>
        obtain ⟨o, g1, g2, g3, g4⟩ := h2 v hv
        have hle : n * (m / n) ≤ m := Nat.mul_div_le m n
        refine ⟨((m / n : Nat) : Int) * i + o, ?_, ?_, ?_, ?_⟩
        · rw [NDArray.offset, g1]; rfl
        · have := mul_nonneg (Int.natCast_nonneg (m / n)) hi.1
          omega
        · intro hm
          by_cases hz : m / n = 0
          · rw [g4 hz, hz]; simpa using hm
          · have h3 := g3 (Nat.pos_of_ne_zero hz)
            have h4 : ((m / n : Nat) : Int) * i ≤ ((m / n : Nat) : Int) * ((n : Int) - 1) :=
              mul_le_mul_of_nonneg_left (by have := hi.2; omega) (Int.natCast_nonneg _)
            have h5 : ((m / n : Nat) : Int) * n ≤ m := by rw [mul_comm]; exact_mod_cast hle
            rw [mul_sub, mul_one] at h4
            omega
        · intro hm
          subst hm
          rw [Nat.zero_div] at g4 ⊢
          rw [g4 rfl]; simp

/-- More than `2^64` cells, not a multiple of it: the table that is allocated is smaller than the one asked for.  Every access
stays inside it, but different cells share an entry. -/
theorem C84_wrapped (mem : Nat → Bool) {s : List Nat} (hg : GoodShape s) (hr : prodSizes s % 2 ^ 64 ≠ 0)
    (hm : mem (prodSizes s % 2 ^ 64) = true) :
    ∃ a : NDArray α, (NDArray.empty : NDArray α).resizeW mem s = .ok a ∧ a.sizes = s ∧ a.data.length = prodSizes s % 2 ^ 64 ∧
      (∀ v, InRange s v → ∃ o : Int, NDArray.offset a.offsets v = .ok o ∧ 0 ≤ o ∧ o < a.data.length) ∧
      (2 ^ 64 ≤ prodSizes s → ∃ v w, InRange s v ∧ InRange s w ∧ v ≠ w ∧ NDArray.offset a.offsets v = NDArray.offset a.offsets w) := by
  have hst : storage64 s = prodSizes s % 2 ^ 64 := storage64_eq hg.1
  obtain ⟨os, h1, h2⟩ := offsets_inside hg.2 (prodSizes s % 2 ^ 64)
  have hins : ∀ v, InRange s v → ∃ o : Int, NDArray.offset os v = .ok o ∧ 0 ≤ o ∧ o < (prodSizes s % 2 ^ 64 : Nat) := by
    intro v hv
    obtain ⟨o, g1, g2, g3, -⟩ := h2 v hv
    exact ⟨o, g1, g2, g3 (Nat.pos_of_ne_zero hr)⟩
  refine ⟨⟨s, os, prodSizes s % 2 ^ 64, List.replicate (prodSizes s % 2 ^ 64) none⟩, ?_, rfl, by simp, ?_, ?_⟩
  · cases s with
    | nil => exact absurd rfl hg.1
    | cons n s =>
      unfold NDArray.resizeW
      simp only [hst]
      rw [if_pos (show _ > (NDArray.empty : NDArray α).storageSize from Nat.pos_of_ne_zero hr), if_pos hm, h1]
      rfl
  · intro v hv
    simpa using hins v hv
  · intro hbig
    have hlt : prodSizes s % 2 ^ 64 < prodSizes s := lt_of_lt_of_le (Nat.mod_lt _ (by norm_num)) hbig
    have hcard : (cells s).card = prodSizes s := by
      unfold cells
      rw [List.card_toFinset, (nodup_allIdx s).dedup, length_allIdx]
    let f : List Int → Nat := fun v => match NDArray.offset os v with | .ok o => o.toNat | _ => 0
    obtain ⟨v, hv, w, hw, hne, he⟩ := Finset.exists_ne_map_eq_of_card_lt_of_maps_to (s := cells s)
      (t := Finset.range (prodSizes s % 2 ^ 64)) (by rw [hcard, Finset.card_range]; exact hlt) (f := f) (by
        intro v hv
        obtain ⟨o, g1, g2, g3⟩ := hins v (mem_cells.mp hv)
        have : f v = o.toNat := by simp only [f, g1]
        rw [this]
        exact Finset.mem_coe.mpr (Finset.mem_range.mpr (by omega)))
    obtain ⟨o, g1, g2, -⟩ := hins v (mem_cells.mp hv)
    obtain ⟨o', g1', g2', -⟩ := hins w (mem_cells.mp hw)
    refine ⟨v, w, mem_cells.mp hv, mem_cells.mp hw, hne, ?_⟩
    simp only [f, g1, g1'] at he
    simp only [g1, g1']
    congr 1
    omega

/-- a table with 2^64 + 2^32 cells: 2^32 entries are allocated -/
example (mem : Nat → Bool) (hm : mem (2 ^ 32) = true) :
    ∃ a : NDArray Int, NDArray.empty.resizeW mem [2 ^ 32, 2 ^ 32 + 1] = .ok a ∧ a.data.length = 2 ^ 32 := by
  obtain ⟨a, h1, -, h2, -⟩ := C84_wrapped (α := Int) mem (s := [2 ^ 32, 2 ^ 32 + 1]) ⟨by simp, by simp⟩ (by norm_num [prodSizes])
    (by norm_num [prodSizes]; exact hm)
  exact ⟨a, h1, by rw [h2]; norm_num [prodSizes]⟩

/-- Two persons described by 64 attributes with two values each. -/
def binaryProb : Prob Int := (List.range 64).map (fun i => ([i], fun _ => 1))

theorem binaryProb_get {p : List Nat × (List Int → Int)} (hp : p ∈ binaryProb) : (∃ i < 64, p.1 = [i]) ∧ p.2 = fun _ => 1 := by
  obtain ⟨i, hi, rfl⟩ := List.mem_map.mp hp
  exact ⟨⟨i, List.mem_range.mp hi, rfl⟩, rfl⟩

theorem binaryProb_proj {i : Nat} (hi : i < 64) : projSizes [i] (List.replicate 64 2) = [2] := by
  interval_cases i <;> rfl

theorem binaryProb_ok : ProbOK (List.replicate 64 2) binaryProb 2 where
  lists := by simp [binaryProb]
  two := by simp
  pos := by simp
  dims := by
    intro p hp
    obtain ⟨⟨i, hi, h⟩, -⟩ := binaryProb_get hp
    simp [h, hi]
  cover := by
    intro d hd
    rw [List.length_replicate] at hd
    exact ⟨([d], fun _ => 1), List.mem_map.mpr ⟨d, List.mem_range.mpr hd, rfl⟩, by simp⟩
  nonneg := by
    intro p hp j _
    rw [(binaryProb_get hp).2]
    norm_num
  total := by
    intro p hp
    obtain ⟨⟨i, hi, h⟩, h2⟩ := binaryProb_get hp
    rw [h, h2, binaryProb_proj hi]
    decide
  partials := by
    intro p hp q hq a b d ha hb x hx
    obtain ⟨⟨i, hi, h1⟩, h2⟩ := binaryProb_get hp
    obtain ⟨⟨j, hj, h3⟩, h4⟩ := binaryProb_get hq
    rw [h1] at ha ⊢
    rw [h3] at hb ⊢
    have e1 : a = 0 := by by_contra hc; simp [hc] at ha
    have e2 : b = 0 := by by_contra hc; simp [hc] at hb
    rw [h2, h4, e1, e2, binaryProb_proj hi, binaryProb_proj hj]

/-- 64 attributes with two values each are enough -/
example (hfp : fp.Good) (lm : Libm) (mem : Nat → Bool) :
    QIS.runW mem fp lm (indicesOf binaryProb) (marginalsOf (List.replicate 64 2) binaryProb) 0 = .ub .oob :=
  C84_negation hfp lm mem binaryProb_ok (by norm_num) (by simp) (by decide) le_rfl (by norm_num)

/-- an ordinary problem when there is memory for six cells -/
example (hfp : fp.Good) (lm : Libm) :
    QIS.runW (fun k => decide (k ≤ 6)) fp lm (indicesOf exProb) (marginalsOf [2, 3] exProb) 0 =
      QIS.run fp lm (indicesOf exProb) (marginalsOf [2, 3] exProb) 0 :=
  C84_small_partial hfp lm _ exProb_ok (by norm_num) (by decide) 0

end HL
