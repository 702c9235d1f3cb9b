import Verif.Proof.Int64Micro
import Verif.Proof.QISMore

/-
The population loops with checked 64-bit arithmetic.
-/

namespace HL
open Out
variable {fp : FP}

/-- A read that succeeds reads some cell, and a write at the same place writes that cell. -/
theorem get_arr_cases {α : Type} {s : List Nat} {g : List Int → α} {idx : List Int} {x : α} (h : (arr s g).get idx = .ok x) :
    ∃ v, InRange s v ∧ x = g v ∧ ∀ y, (arr s g).set idx y = .ok (arr s (Function.update g v y)) := by
  have hd : (arr s g).data = (allIdx s).map (fun v => some (g v)) := rfl
  unfold NDArray.get at h
  rw [bind_eq_ok] at h
  obtain ⟨o, ho, h⟩ := h
  split at h
  · next hb =>
    rw [hd] at hb h
    simp only [List.length_map] at hb
    have hlt : o.toNat < (allIdx s).length := by omega
    refine ⟨(allIdx s)[o.toNat], mem_allIdx.mp (List.getElem_mem _), ?_, ?_⟩
    · simp only [List.getD_eq_getElem?_getD, List.getElem?_map, List.getElem?_eq_getElem hlt, Option.map_some,
        Option.getD_some, ok.injEq] at h
      exact h.symm
    · intro y
      have hv : InRange s ((allIdx s)[o.toNat]) := mem_allIdx.mp (List.getElem_mem _)
      have hset := set_arr (g := g) hv y
      rw [← hset]
      unfold NDArray.set
      rw [ho]
      have hr : rank s ((allIdx s)[o.toNat]) = (o.toNat : Int) := rank_of_getElem (List.getElem?_eq_getElem hlt)
      have ho' : NDArray.offset (arr s g).offsets ((allIdx s)[o.toNat]) = .ok o := by
        unfold arr
        rw [arrO_offsets, offset_eq_rank (inRange_length hv), hr]
        congr 1; omega
      rw [ho']
  · cases h

theorem addAt64_eq {a : NDArray Int} {idx : List Int} {k : Int} (h : ∀ x, a.get idx = .ok x → In64 (x + k)) :
    a.addAt64 idx k = a.modify idx (fun x => x + k) := by
  unfold NDArray.addAt64 NDArray.modify
  cases hg : a.get idx with
  | ok x =>
    simp only [ok_bind]
    rw [chk64_ok (h x hg)]
    rfl
  | thrown e => rfl
  | ub u => rfl
  | diverges => rfl

/-- after `k` decrements: the sum over any set of cells is at least `-k`, and fits -/
def Sub (k : Nat) (m : List Nat × (List Int → Int)) : Prop :=
  ∀ S ⊆ cells m.1, -(k : Int) ≤ ∑ v ∈ S, m.2 v ∧ ∑ v ∈ S, m.2 v < 2 ^ 63

theorem Sub.fits {k : Nat} (hk : k ≤ 2 ^ 63) {m : List Nat × (List Int → Int)} (h : Sub k m) : Fits m.1 m.2 := by
  intro S hS
  obtain ⟨h1, h2⟩ := h S hS
  exact ⟨by omega, h2⟩

theorem Sub.cell {k : Nat} {m : List Nat × (List Int → Int)} (h : Sub k m) {v : List Int} (hv : InRange m.1 v) :
    -(k : Int) ≤ m.2 v ∧ m.2 v < 2 ^ 63 := by
  have := h {v} (by simpa using mem_cells.mpr hv)
  simpa using this

theorem Sub.dec {k : Nat} {m : List Nat × (List Int → Int)} (h : Sub k m) (v : List Int) :
    Sub (k + 1) (m.1, Function.update m.2 v (m.2 v + -1)) := by
  intro S hS
  obtain ⟨h1, h2⟩ := h S hS
  by_cases hv : v ∈ S
  · simp only
    rw [Finset.sum_update_of_mem hv]
    have hsd : m.2 v + ∑ x ∈ S \ {v}, m.2 x = ∑ x ∈ S, m.2 x := by
      rw [← Finset.erase_eq, Finset.add_sum_erase _ _ hv]
    rw [← hsd] at h1 h2
    push_cast
    constructor <;> omega
  · simp only
    rw [Finset.sum_update_of_notMem hv]
    push_cast
    constructor <;> omega

theorem Sub.zero {m : List Nat × (List Int → Int)} (hn : ∀ v, InRange m.1 v → 0 ≤ m.2 v) (hf : Fits m.1 m.2) : Sub 0 m := by
  intro S hS
  refine ⟨?_, (hf S hS).2⟩
  have : 0 ≤ ∑ v ∈ S, m.2 v := Finset.sum_nonneg (fun v hv => hn v (mem_cells.mp (hS hv)))
  simpa using this

open QIS in
theorem decrement64_eq {k : Nat} (hk : k < 2 ^ 63) {idx : List Int} : ∀ (maps : List MappedIndex)
    (L : List (List Nat × (List Int → Int))) (conv : Bool), (∀ m ∈ L, GoodShape m.1 ∧ Sub k m) →
    decrement64 idx maps (L.map (fun m => arr m.1 m.2)) conv = decrement idx maps (L.map (fun m => arr m.1 m.2)) conv ∧
    ∀ r, decrement idx maps (L.map (fun m => arr m.1 m.2)) conv = .ok r →
      ∃ L' : List (List Nat × (List Int → Int)), r.1 = L'.map (fun m => arr m.1 m.2) ∧ ∀ m ∈ L', GoodShape m.1 ∧ Sub (k + 1) m
  | [], L, conv, h => by
    refine ⟨rfl, ?_⟩
    intro r hr
    unfold decrement at hr
    injection hr with hr
    subst hr
    refine ⟨L, rfl, fun m hm => ⟨(h m hm).1, ?_⟩⟩
    intro S hS
    obtain ⟨h1, h2⟩ := (h m hm).2 S hS
    push_cast
    exact ⟨by omega, h2⟩
  | _ :: _, [], _, _ => ⟨rfl, by intro r hr; cases hr⟩
  | mp :: maps, m :: L, conv, h => by
    have hm := h m (by simp)
    have hsub : ∀ m ∈ L, GoodShape m.1 ∧ Sub k m := fun m hm => h m (by simp [hm])
    simp only [List.map_cons, decrement64, decrement]
    have hadd : (arr m.1 m.2).addAt64 (mp.vals idx) (-1) = (arr m.1 m.2).modify (mp.vals idx) (fun x => x - 1) := by
      rw [addAt64_eq]
      · rfl
      · intro x hx
        obtain ⟨v, hv, rfl, -⟩ := get_arr_cases hx
        have := hm.2.cell hv
        unfold In64
        omega
    rw [hadd]
    cases hmod : (arr m.1 m.2).modify (mp.vals idx) (fun x => x - 1) with
    | thrown e => exact ⟨rfl, by intro r hr; cases hr⟩
    | ub u => exact ⟨rfl, by intro r hr; cases hr⟩
    | diverges => exact ⟨rfl, by intro r hr; cases hr⟩
    | ok g =>
      simp only [ok_bind]
      cases hget : g.get (mp.vals idx) with
      | thrown e => exact ⟨rfl, by intro r hr; cases hr⟩
      | ub u => exact ⟨rfl, by intro r hr; cases hr⟩
      | diverges => exact ⟨rfl, by intro r hr; cases hr⟩
      | ok v =>
        simp only [ok_bind]
        obtain ⟨ih1, ih2⟩ := decrement64_eq hk maps L (if v < 0 then false else conv) hsub
        rw [ih1]
        refine ⟨rfl, ?_⟩
        intro r hr
        rw [bind_eq_ok] at hr
        obtain ⟨r', hr', hr⟩ := hr
        simp only [pure_eq, ok.injEq] at hr
        subst hr
        obtain ⟨L', h1, h2⟩ := ih2 r' hr'
        unfold NDArray.modify at hmod
        rw [bind_eq_ok] at hmod
        obtain ⟨x, hx, hmod⟩ := hmod
        obtain ⟨w, hw, rfl, hset⟩ := get_arr_cases hx
        rw [hset] at hmod
        injection hmod with hmod
        refine ⟨(m.1, Function.update m.2 w (m.2 w + -1)) :: L', ?_, ?_⟩
        · simp only [List.map_cons, h1]
          rw [← hmod]
          rfl
        · intro m' hm'
          rcases List.mem_cons.mp hm' with rfl | hm'
          · exact ⟨hm.1, hm.2.dec w⟩
          · exact h2 m' hm'

theorem addOne_eq {s : List Nat} {f : List Int → Int} {k : Nat} (hk : k + 1 < 2 ^ 63)
    (hf : ∀ v, InRange s v → 0 ≤ f v ∧ f v ≤ k) (idx : List Int) :
    (arr s f).addAt64 idx 1 = (arr s f).modify idx (fun n => n + 1) ∧
    ∀ a, (arr s f).modify idx (fun n => n + 1) = .ok a →
      ∃ f', a = arr s f' ∧ ∀ v, InRange s v → 0 ≤ f' v ∧ f' v ≤ (k + 1 : Nat) := by
  constructor
  · apply addAt64_eq
    intro x hx
    obtain ⟨v, hv, rfl, -⟩ := get_arr_cases hx
    have := hf v hv
    unfold In64
    omega
  · intro a ha
    unfold NDArray.modify at ha
    rw [bind_eq_ok] at ha
    obtain ⟨x, hx, ha⟩ := ha
    obtain ⟨w, hw, rfl, hset⟩ := get_arr_cases hx
    rw [hset] at ha
    injection ha with ha
    refine ⟨_, ha.symm, ?_⟩
    intro v hv
    have h1 := hf v hv
    have h2 := hf w hw
    by_cases hvw : v = w
    · subst hvw
      simp only [Function.update_self]
      push_cast; omega
    · rw [Function.update_of_ne hvw]
      push_cast; omega

/-! ### QIS -/

theorem sum_count_le {ds : List Nat} (S : Finset (List Int)) : ∀ (hs : List (List Int)),
    0 ≤ ∑ j ∈ S, (hs.countP (fun v => proj ds v = j) : Int) ∧
    ∑ j ∈ S, (hs.countP (fun v => proj ds v = j) : Int) ≤ hs.length
  | [] => by simp
  | v :: hs => by
    obtain ⟨h1, h2⟩ := sum_count_le (ds := ds) S hs
    have e : ∑ j ∈ S, ((v :: hs).countP (fun v => proj ds v = j) : Int) =
        ∑ j ∈ S, (hs.countP (fun v => proj ds v = j) : Int) + ∑ j ∈ S, (if proj ds v = j then 1 else 0 : Int) := by
      rw [← Finset.sum_add_distrib]
      apply Finset.sum_congr rfl
      intro j _
      rw [List.countP_cons]
      split
      · next hh => simp only [decide_eq_true_eq] at hh; simp [hh]
      · next hh => simp only [decide_eq_true_eq] at hh; simp [hh]
    rw [e, Finset.sum_ite_eq]
    simp only [List.length_cons]
    push_cast
    split <;> omega

theorem sub_remaining {s : List Nat} {P : Prob Int} (hP : ∀ p ∈ P, Sub 0 (projSizes p.1 s, p.2)) (hs : List (List Int)) :
    ∀ p ∈ remaining hs P, Sub hs.length (projSizes p.1 s, p.2) := by
  intro p hp
  obtain ⟨q, hq, rfl⟩ := List.mem_map.mp hp
  intro S hS
  obtain ⟨h1, h2⟩ := hP q hq S hS
  obtain ⟨h3, h4⟩ := sum_count_le (ds := q.1) S hs
  simp only at h1 h2 ⊢
  rw [Finset.sum_sub_distrib]
  constructor <;> omega

open QIS in
theorem individual64_eq {s : List Nat} {P : Prob Int} (h : ProbShape s P) (hP : ∀ p ∈ P, Sub 0 (projSizes p.1 s, p.2))
    {pop : Int} {hs : List (List Int)} {n : Nat} {x : QIS} (hx : QISAt s P pop hs n x) (hl : hs.length + 1 < 2 ^ 63) :
    individual64 fp (mapsOf s P) x = individual fp (mapsOf s P) x := by
  unfold individual64 individual
  by_cases hn : n = 2 ^ 32 - 1
  · subst hn
    rw [next_end hx.sobol]
    rfl
  obtain ⟨sb, seq, h1, h2, h3, -, -⟩ := next_ok hx.sobol (lt_of_le_of_ne hx.sobol.bound hn)
  rw [h1]
  simp only [ok_bind]
  have e1 : x.micro.indices = indicesOf P := by rw [hx.micro]; rfl
  have e2 : x.micro.marginals = marginalsOf s (remaining hs P) := by rw [hx.micro]
  have e3 : x.micro.dim = s.length := by rw [hx.micro]; rfl
  have e4 : x.micro.array = arr s (fun v => (hs.count v : Int)) := by rw [hx.micro]
  rw [e1, e2, e3]
  have hsh := shape_remaining h hs
  have hsub := sub_remaining hP hs
  have hall := sampleAll64_eq (fp := fp) h.good (seq := seq) h3.1 (remaining hs P) _ hsh.dims
    (fun p hp => (hsub p hp).fits (by omega)) (partial_replicate s)
  rw [indicesOf_remaining, mapsOf_remaining] at hall
  rw [hall]
  cases sampleAll fp seq (indicesOf P) (mapsOf s P) (marginalsOf s (remaining hs P)) (List.replicate s.length (-1)) with
  | thrown e => rfl
  | ub u => rfl
  | diverges => rfl
  | ok idx =>
    simp only [ok_bind]
    split
    · rfl
    · have hdec := (decrement64_eq (idx := idx) (k := hs.length) (by omega) (mapsOf s P) (shapesOf s (remaining hs P)) x.conv (by
        intro m hm
        obtain ⟨p, hp, rfl⟩ := List.mem_map.mp hm
        exact ⟨hsh.goodP hp, hsub p hp⟩)).1
      rw [← marginalsOf_eq] at hdec
      rw [hdec, e4, (addOne_eq (k := hs.length) (by omega) (by
        intro v _
        have := List.count_le_length (a := v) (l := hs)
        constructor
        · positivity
        · exact_mod_cast this) idx).1]

open QIS in
theorem individuals64_eq {s : List Nat} {P : Prob Int} (h : ProbShape s P) (hP : ∀ p ∈ P, Sub 0 (projSizes p.1 s, p.2))
    {pop : Int} : ∀ (k : Nat) {hs : List (List Int)} {n : Nat} {x : QIS}, QISAt s P pop hs n x → hs.length + k < 2 ^ 63 →
    individuals64 fp (mapsOf s P) k x = individuals fp (mapsOf s P) k x
  | 0, _, _, _, _, _ => rfl
  | k + 1, hs, n, x, hx, hl => by
    unfold individuals64 individuals
    rw [individual64_eq h hP hx (by omega)]
    rcases individual_cases (fp := fp) h hx with h1 | ⟨h1, h2⟩ | ⟨v, x', seq, hv, h1, h2, -⟩
    · rw [h1]; rfl
    · rw [h2]; rfl
    · rw [h1]
      simp only [ok_bind]
      exact individuals64_eq h hP k h2 (by simp only [List.length_cons]; omega)

open QIS in
theorem solve64_eq (lm : Libm) {s : List Nat} {P : Prob Int} (h : ProbShape s P)
    (hP : ∀ p ∈ P, Sub 0 (projSizes p.1 s, p.2)) {pop : Int} (hpop : pop < 2 ^ 63) {n : Nat} {x : QIS}
    (hm : x.micro = mkMicro Int s P pop) (hs : SobolAt s.length n x.sobol) :
    solve64 fp lm x false = solve fp lm x false := by
  have e : remaining [] P = P := by simp [remaining]
  have hb : ∃ x', QIS.begin false x = .ok x' ∧ QISAt s P pop [] n x' := by
    have ha : x.micro.array = arrO s (fun _ => none) := by rw [hm]; rfl
    unfold QIS.begin
    simp only [Bool.false_eq_true, if_false, Out.pure_eq, Out.ok_bind]
    rw [ha, assign_eq]
    simp only [Out.ok_bind]
    refine ⟨_, rfl, ?_, hs⟩
    simp only []
    rw [hm, e]
    rfl
  obtain ⟨x1, hb, h1⟩ := hb
  unfold solve64 solve
  rw [hb]
  simp only [ok_bind]
  have e1 : x1.micro.array.sizes = s := by rw [h1.micro]; rfl
  have e2 : x1.micro.indices = indicesOf P := by rw [h1.micro]; rfl
  have e3 : x1.micro.population = pop := by rw [h1.micro]; rfl
  rw [e1, e2, e3, index_new h.good.1]
  simp only [ok_bind]
  have hmm := mappings_ok (s := s) (P := P) (fun p hp => (h.dims p hp).2)
  rw [show (zerosI s.length) = List.replicate s.length 0 from rfl, hmm]
  simp only [ok_bind]
  have := individuals64_eq (fp := fp) h hP pop.toNat h1 (by simp only [List.length_nil]; omega)
  unfold mapsOf at this
  rw [this]

/-- The constructed object is the one for some problem. -/
theorem new_ok_prob {β : Type} {is : List (List Int)} {L : List (List Nat × (List Int → Int))} (hg : ∀ m ∈ L, GoodShape m.1)
    {m : Micro β Int} (hm : Micro.new fp (numInt fp) is (L.map (fun m => arr m.1 m.2)) = .ok m)
    (hs : Small fp is L m) : ∃ s P pop, ProbShape s P ∧ L = shapesOf s P ∧ m = mkMicro β s P pop := by
  rcases new_raw (β := β) fp (numInt fp) (minOK_int fp) is L hg with ⟨s, P, rfl, rfl, hP⟩ | ⟨e, he⟩
  · rw [← marginalsOf_eq] at hm
    rcases new_shape (β := β) fp (numInt fp) (minOK_int fp) hP (by
      intro p hp
      obtain ⟨t, ht⟩ := hs.rounded (projSizes p.1 s, p.2) (List.mem_map.mpr ⟨p, hp, rfl⟩)
      rw [roundedSum_eq] at ht
      exact ⟨t, ht⟩) with ⟨pop, -, h⟩ | ⟨⟨e, h⟩, -⟩
    · rw [h] at hm
      injection hm with hm
      exact ⟨s, P, pop, hP, rfl, hm.symm⟩
    · rw [h] at hm; cases hm
  · rw [he] at hm; cases hm

theorem sobol_new_ok {dim : Nat} {x : Sobol} (h1 : 1 ≤ dim) (h : Sobol.new dim 0 = .ok x) : SobolAt dim 0 x := by
  by_cases hd : dim ≤ 1111
  · obtain ⟨y, hy, ha, -⟩ := new_ok h1 hd
    rw [hy] at h
    injection h with h
    subst h
    exact ha
  · exfalso
    unfold Sobol.new at h
    by_cases h61 : 2 ^ 61 ≤ dim
    · rw [if_pos h61] at h; cases h
    · rw [if_neg h61, if_pos (by omega)] at h; cases h

theorem sobol_skip_ok {dim n k : Nat} {x x' : Sobol} (h : SobolAt dim n x) (hx : x.skip k = .ok x') :
    ∃ n', SobolAt dim n' x' := by
  rcases skipCount_cases k with ⟨c, hc, -⟩ | ⟨-, hc⟩
  · obtain ⟨y, hy, ha, -⟩ := skip_ok h hc
    rw [hy] at hx
    injection hx with hx
    subst hx
    exact ⟨_, ha⟩
  · exfalso
    unfold Sobol.skip sobolSkip at hx
    rw [hc] at hx
    cases hx

open QIS in
theorem qis_run64 (hfp : fp.Good) (h63 : Has63 fp) (lm : Libm) (is : List (List Int))
    (L : List (List Nat × (List Int → Int))) (hg : ∀ m ∈ L, GoodShape m.1) (skips : Int) :
    SameOutcome (run64 fp lm is (L.map (fun m => arr m.1 m.2)) skips) (run fp lm is (L.map (fun m => arr m.1 m.2)) skips) := by
  obtain ⟨hsame, hsm⟩ := micro_new64 (β := Int) hfp h63 is L hg
  unfold run64 run QIS.new64 QIS.new
  simp only [bind_assoc]
  refine hsame.bind ?_
  intro m _ hm
  have hS := hsm m hm
  obtain ⟨s, P, pop, hP, hL, rfl⟩ := new_ok_prob hg hm hS
  have hsub : ∀ p ∈ P, Sub 0 (projSizes p.1 s, p.2) := by
    intro p hp
    have hmem : (projSizes p.1 s, p.2) ∈ L := by rw [hL]; exact List.mem_map.mpr ⟨p, hp, rfl⟩
    exact Sub.zero (hS.nonneg _ hmem) (hS.fits _ hmem)
  refine SameOutcome.rfl'.bind fun sb hsb _ => ?_
  refine SameOutcome.rfl'.bind fun sb' hsb' _ => ?_
  refine SameOutcome.rfl'.bind fun sv _ _ => ?_
  refine SameOutcome.rfl'.bind fun sv' _ _ => ?_
  refine SameOutcome.rfl'.bind fun e _ _ => ?_
  refine SameOutcome.rfl'.bind fun tt _ _ => ?_
  refine SameOutcome.rfl'.bind fun e' _ _ => ?_
  simp only [pure_eq, ok_bind]
  left
  have h2 := hP.two
  obtain ⟨n', ha⟩ := sobol_skip_ok (sobol_new_ok (by show 1 ≤ s.length; omega) hsb) hsb'
  exact solve64_eq lm hP hsub hS.pop.2 (n := n') rfl ha

/-! ### QISI -/

namespace QISI

/-- After `k` individuals: what bounds the marginals and the table. -/
def Inv (k : Nat) (x : QISI) : Prop :=
  (∃ L : List (List Nat × (List Int → Int)), x.micro.marginals = L.map (fun m => arr m.1 m.2) ∧
    ∀ m ∈ L, GoodShape m.1 ∧ Sub k m) ∧
  ∃ s f, x.micro.array = arr s f ∧ ∀ v, InRange s v → 0 ≤ f v ∧ f v ≤ (k : Int)

theorem ipf64_same (hfp : fp.Good) (h63 : Has63 fp) (dbg : Bool) (seed : NDArray Fl) (is : List (List Int))
    (L : List (List Nat × (List Int → Int))) (hg : ∀ m ∈ L, GoodShape m.1) :
    SameOutcome (IPF.run64 dbg fp is (L.map (fun m => arr m.1 m.2)) seed)
      (IPF.run dbg fp (numInt fp) is (L.map (fun m => arr m.1 m.2)) seed) := by
  unfold IPF.run64 IPF.run IPF.new
  simp only [bind_assoc]
  exact (micro_new64 hfp h63 is L hg).1.bind fun m _ _ => SameOutcome.rfl'

theorem recompute64_same (hfp : fp.Good) (h63 : Has63 fp) (dbg : Bool) (seed : NDArray Fl) (x : QISI)
    (h : ∃ L : List (List Nat × (List Int → Int)), x.micro.marginals = L.map (fun m => arr m.1 m.2) ∧ ∀ m ∈ L, GoodShape m.1) :
    SameOutcome (recomputeIPF64 dbg fp seed x) (recomputeIPF dbg fp seed x) := by
  obtain ⟨L, hL, hg⟩ := h
  unfold recomputeIPF64 recomputeIPF
  rw [hL]
  exact (ipf64_same hfp h63 dbg seed _ L hg).bind fun m _ _ => SameOutcome.rfl'

theorem recompute_micro {dbg : Bool} {seed : NDArray Fl} {x y : QISI} (h : recomputeIPF dbg fp seed x = .ok y) :
    y.micro = x.micro := by
  unfold recomputeIPF at h
  rw [bind_eq_ok] at h
  obtain ⟨f, -, h⟩ := h
  rw [bind_eq_ok] at h
  obtain ⟨p, -, h⟩ := h
  injection h with h
  subst h
  rfl

theorem place64_eq {k : Nat} (hk : k + 1 < 2 ^ 63) {x : QISI} (hx : Inv k x) (maps : List MappedIndex) (idx : List Int) :
    place64 maps idx x = place maps idx x ∧ ∀ y, place maps idx x = .ok y → Inv (k + 1) y := by
  obtain ⟨⟨L, hL, hLs⟩, s, f, ha, hf⟩ := hx
  obtain ⟨h1, h2⟩ := addOne_eq hk hf idx
  obtain ⟨h3, h4⟩ := decrement64_eq (k := k) (by omega) (idx := idx) maps L x.conv hLs
  unfold place64 place
  rw [ha, hL, h1]
  constructor
  · simp only [h3]
  · intro y hy
    rw [bind_eq_ok] at hy
    obtain ⟨a, ha', hy⟩ := hy
    rw [bind_eq_ok] at hy
    obtain ⟨r, hr, hy⟩ := hy
    injection hy with hy
    subst hy
    obtain ⟨L', hL', hLs'⟩ := h4 r hr
    obtain ⟨f', hf', hb⟩ := h2 a ha'
    exact ⟨⟨L', hL', hLs'⟩, s, f', hf', hb⟩

theorem individual64_same (hfp : fp.Good) (h63 : Has63 fp) (dbg : Bool) (seed : NDArray Fl) (maps : List MappedIndex)
    {k : Nat} (hk : k + 1 < 2 ^ 63) {t : Loop} (ht : Inv k t.obj) :
    SameOutcome (individual64 dbg fp seed maps t) (individual dbg fp seed maps t) ∧
    ∀ t', individual dbg fp seed maps t = .ok t' → Inv (k + 1) t'.obj := by
  unfold individual64 individual
  constructor
  · refine SameOutcome.rfl'.bind fun p _ _ => ?_
    cases p.2 with
    | error e => exact SameOutcome.rfl'
    | ok seq =>
      simp only
      refine SameOutcome.rfl'.bind fun idx _ _ => ?_
      obtain ⟨h1, h2⟩ := place64_eq hk ht maps idx
      rw [h1]
      refine SameOutcome.rfl'.bind fun y hy _ => ?_
      have hy := h2 y hy
      refine SameOutcome.bind ?_ fun z _ _ => SameOutcome.rfl'
      unfold takeOut64 takeOut
      refine SameOutcome.rfl'.bind fun q _ _ => ?_
      refine SameOutcome.rfl'.bind fun v _ _ => ?_
      split
      · obtain ⟨⟨L, hL, hLs⟩, -⟩ := hy
        exact recompute64_same hfp h63 dbg seed _ ⟨L, hL, fun m hm => (hLs m hm).1⟩
      · exact SameOutcome.rfl'
  · intro t' h
    rw [bind_eq_ok] at h
    obtain ⟨p, -, h⟩ := h
    cases hp : p.2 with
    | error e => rw [hp] at h; cases h
    | ok seq =>
      rw [hp] at h
      simp only at h
      rw [bind_eq_ok] at h
      obtain ⟨idx, -, h⟩ := h
      rw [bind_eq_ok] at h
      obtain ⟨y, hy, h⟩ := h
      rw [bind_eq_ok] at h
      obtain ⟨z, hz, h⟩ := h
      injection h with h
      subst h
      have hy := (place64_eq hk ht maps idx).2 y hy
      have : z.micro = y.micro := by
        unfold takeOut at hz
        rw [bind_eq_ok] at hz
        obtain ⟨q, -, hz⟩ := hz
        rw [bind_eq_ok] at hz
        obtain ⟨v, -, hz⟩ := hz
        split at hz
        · rw [recompute_micro hz]
        · injection hz with hz; subst hz; rfl
      unfold Inv
      simp only
      rw [this]
      exact hy

theorem individuals64_same (hfp : fp.Good) (h63 : Has63 fp) (dbg : Bool) (seed : NDArray Fl) (maps : List MappedIndex) :
    ∀ (n : Nat) {k : Nat} {t : Loop}, k + n < 2 ^ 63 → Inv k t.obj →
    SameOutcome (individuals64 dbg fp seed maps n t) (individuals dbg fp seed maps n t)
  | 0, _, _, _, _ => SameOutcome.rfl'
  | n + 1, k, t, hk, ht => by
    unfold individuals64 individuals
    obtain ⟨h1, h2⟩ := individual64_same hfp h63 dbg seed maps (by omega) ht
    exact h1.bind fun t' _ ht' => individuals64_same hfp h63 dbg seed maps n (by omega) (h2 t' ht')

end QISI

open QISI in
theorem qisi_run64 (hfp : fp.Good) (h63 : Has63 fp) (dbg : Bool) (lm : Libm) (is : List (List Int))
    (L : List (List Nat × (List Int → Int))) (hg : ∀ m ∈ L, GoodShape m.1) (seed : NDArray Fl) (skips : Int) :
    SameOutcome (run64 dbg fp lm is (L.map (fun m => arr m.1 m.2)) seed skips)
      (run dbg fp lm is (L.map (fun m => arr m.1 m.2)) seed skips) := by
  obtain ⟨hsame, hsm⟩ := micro_new64 (β := Int) hfp h63 is L hg
  unfold run64 run QISI.new64 QISI.new
  simp only [bind_assoc]
  refine hsame.bind ?_
  intro m _ hm
  have hS := hsm m hm
  refine SameOutcome.rfl'.bind fun sb hsb _ => ?_
  refine SameOutcome.rfl'.bind fun sb' hsb' _ => ?_
  simp only [pure_eq, ok_bind]
  unfold solve64 solve
  refine SameOutcome.rfl'.bind fun _ _ _ => ?_
  refine SameOutcome.rfl'.bind fun sb2 _ _ => ?_
  have hmar : m.marginals = L.map (fun m => arr m.1 m.2) := hS.marginals
  have hb : SameOutcome
      (begin64 dbg fp seed { micro := m, sobol := sb2, expected := NDArray.empty, ipf := NDArray.empty, chiSq := .nan, pValue := .nan, degeneracy := .nan, conv := false })
      (begin dbg fp seed { micro := m, sobol := sb2, expected := NDArray.empty, ipf := NDArray.empty, chiSq := .nan, pValue := .nan, degeneracy := .nan, conv := false }) := by
    unfold begin64 begin
    refine SameOutcome.rfl'.bind fun p _ _ => ?_
    refine SameOutcome.rfl'.bind fun e _ _ => ?_
    exact (recompute64_same hfp h63 dbg seed _ ⟨L, hmar, hg⟩).bind fun _ _ _ => SameOutcome.rfl'
  refine hb.bind fun y _ hy => ?_
  refine SameOutcome.rfl'.bind fun main _ _ => ?_
  refine SameOutcome.rfl'.bind fun maps _ _ => ?_
  refine SameOutcome.rfl'.bind fun gen _ _ => ?_
  refine SameOutcome.bind ?_ fun t _ _ => SameOutcome.rfl'
  unfold begin at hy
  rw [bind_eq_ok] at hy
  obtain ⟨p, -, hy⟩ := hy
  rw [bind_eq_ok] at hy
  obtain ⟨e, -, hy⟩ := hy
  rw [bind_eq_ok] at hy
  obtain ⟨z, hz, hy⟩ := hy
  rw [bind_eq_ok] at hy
  obtain ⟨e', -, hy⟩ := hy
  rw [bind_eq_ok] at hy
  obtain ⟨a, ha, hy⟩ := hy
  injection hy with hy
  subst hy
  have hzm : z.micro = m := recompute_micro hz
  rw [hzm] at ha
  simp only
  refine individuals64_same hfp h63 dbg seed maps _ (k := 0) ?_ ?_
  · rw [hzm]
    have := hS.pop.2
    omega
  · refine ⟨⟨L, ?_, ?_⟩, ?_⟩
    · simp only [hzm]
      exact hmar
    · exact fun m hm => ⟨hg m hm, Sub.zero (hS.nonneg _ hm) (hS.fits _ hm)⟩
    · obtain ⟨s, P, pop, hP, -, hmk⟩ := new_ok_prob hg hm hS
      have harr : m.array = arrO s (fun _ => none) := by rw [hmk]; rfl
      rw [harr, assign_eq] at ha
      injection ha with ha
      exact ⟨s, fun _ => 0, ha.symm, fun v _ => by simp⟩

end HL
