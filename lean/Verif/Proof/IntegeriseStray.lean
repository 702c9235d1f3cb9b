import Verif.Proof.IntegeriseClosest
import Verif.Proof.QISIScript

/-
A 3 x 3 table, all of whose entries are binary fractions, for which multidimensional integerisation puts two individuals
where the table holds exactly one.
-/

namespace HL
namespace Integerise
namespace Stray

def u0 : List ℚ := [1 / 4, 1 / 2, 1 / 4, 1 / 2, 1, 1 / 2, 1 / 4, 1 / 2, 1 / 4]
def u1 : List ℚ := [1 / 4, 1 / 2, 1 / 4, 1 / 2, 0, 1 / 2, 1 / 4, 1 / 2, 1 / 4]
def u2 : List ℚ := [0, 1 / 2, 1 / 2, 0, 1 / 2, 1 / 2, 0, 0, 0]
def u3 : List ℚ := [0, 0, 0, 0, 1, 0, 0, 0, 0]
def u4 : List ℚ := [0, 0, 0, 0, 0, 0, 0, 0, 0]

/-- the working table after `n` individuals -/
def tabs : Nat → List ℚ
  | 0 => u0
  | 1 => u1
  | 2 => u2
  | 3 => u3
  | _ => u4

def T (n : Nat) (v : List Int) : Fl := .fin (tab3 (tabs n) v)

/-- the individuals, in the order in which they are placed -/
def vs : List (List Int) := [[1, 1], [2, 0], [0, 2], [1, 1]]

/-- the sums of the table -/
def sums (_d i : Nat) : Int := if i = 1 then 2 else 1

def prob : Prob Int := roundProb [3, 3] sums

def pt0 : Nat → U32
  | 0 => 2147483648#32
  | 1 => 3221225472#32
  | 2 => 1073741824#32
  | _ => 1610612736#32

def pt1 : Nat → U32
  | 0 => 2147483648#32
  | 1 => 1073741824#32
  | 2 => 3221225472#32
  | _ => 1610612736#32

theorem points {n : Nat} (hn : n < 4) {seq : List U32} (h : PointAt 2 (n + 1) seq) : seq.getD 0 0 = pt0 n ∧ seq.getD 1 0 = pt1 n := by
  have h0 := h.2 0 (by norm_num) _ isDir0
  have h1 := h.2 1 (by norm_num) _ isDir1
  rw [h0, h1]
  clear h0 h1 h
  revert n
  decide +kernel

/-- what has to be computed -/
structure Facts (fp : FP) : Prop where
  conv0 : convAt fp (numInt fp) [3, 3] prob (sweep fp (numInt fp) [3, 3] prob (T 0))
  conv2 : convAt fp (numInt fp) [3, 3] (remaining [[2, 0], [1, 1]] prob) (sweep fp (numInt fp) [3, 3] (remaining [[2, 0], [1, 1]] prob) (T 0))
  conv3 : convAt fp (numInt fp) [3, 3] (remaining [[0, 2], [2, 0], [1, 1]] prob)
    (sweep fp (numInt fp) [3, 3] (remaining [[0, 2], [2, 0], [1, 1]] prob) (T 0))
  sw0 : ∀ v ∈ allIdx [3, 3], sweep fp (numInt fp) [3, 3] prob (T 0) v = T 0 v
  sw2 : ∀ v ∈ allIdx [3, 3], sweep fp (numInt fp) [3, 3] (remaining [[2, 0], [1, 1]] prob) (T 0) v = T 2 v
  sw3 : ∀ v ∈ allIdx [3, 3], sweep fp (numInt fp) [3, 3] (remaining [[0, 2], [2, 0], [1, 1]] prob) (T 0) v = T 3 v
  pickj : ∀ n < 4, pick fp (numFl fp) (lastSumsF fp [3] 3 (T n)) (variate fp (pt1 n)) = .ok (((vs.getD n []).getD 1 0).toNat)
  picki : ∀ n < 4, pick fp (numFl fp) ((List.range 3).map (fun i : Nat => T n [(i : Int), (vs.getD n []).getD 1 0]))
    (variate fp (pt0 n)) = .ok (((vs.getD n []).getD 0 0).toNat)
  sub0 : fp.sub (T 0 [1, 1]) (.fin 1) = .fin 0
  sub1 : FP.lt (fp.sub (T 1 [2, 0]) (.fin 1)) (.fin 0) = true
  sub2 : FP.lt (fp.sub (T 2 [0, 2]) (.fin 1)) (.fin 0) = true
  sub3 : fp.sub (T 3 [1, 1]) (.fin 1) = .fin 0
  total : seqSum (numFl fp) [3, 3] (T 0) = .fin 4
  roundT : checkedRound fp (.fin 4) = .ok 4
  round : ∀ d < 2, ∀ i < 3, checkedRound fp (fsum fp [3, 3] [d] (T 0) [((i : Nat) : Int)]) = .ok (sums d i)

theorem facts_exact : Facts FP.exact := by
  refine ⟨?_, ?_, ?_, ?_, ?_, ?_, ?_, ?_, ?_, ?_, ?_, ?_, ?_, ?_, ?_⟩ <;> decide +kernel

theorem facts_id : Facts (FP.ieee id) := by
  refine ⟨?_, ?_, ?_, ?_, ?_, ?_, ?_, ?_, ?_, ?_, ?_, ?_, ?_, ?_, ?_⟩ <;> decide +kernel

theorem facts_ieee (sqrt : Fl → Fl) : Facts (FP.ieee sqrt) :=
  ⟨facts_id.conv0, facts_id.conv2, facts_id.conv3, facts_id.sw0, facts_id.sw2, facts_id.sw3, facts_id.pickj, facts_id.picki,
    facts_id.sub0, facts_id.sub1, facts_id.sub2, facts_id.sub3, facts_id.total, facts_id.roundT, facts_id.round⟩

variable {fp : FP}

theorem prob_ok : ProbOK [3, 3] prob 4 := by
  have hg : GoodShape [3, 3] := ⟨by simp, by simp⟩
  refine ⟨roundProb_shape hg (by simp) _, ?_, ?_, ?_⟩
  · intro p hp j _
    obtain ⟨d, -, rfl⟩ := List.mem_map.mp hp
    dsimp only [sums]
    split <;> norm_num
  · have : ∀ p ∈ prob, ∑ j ∈ cells (projSizes p.1 [3, 3]), p.2 j = 4 := by decide +kernel
    exact this
  · intro p hp q hq a b d hpa hqb x _
    obtain ⟨d1, -, rfl⟩ := List.mem_map.mp hp
    obtain ⟨d2, -, rfl⟩ := List.mem_map.mp hq
    have e1 : a = 0 ∧ d1 = d := by
      cases a with
      | zero => simpa using hpa
      | succ a => simp at hpa
    have e2 : b = 0 ∧ d2 = d := by
      cases b with
      | zero => simpa using hqb
      | succ b => simp at hqb
    obtain ⟨rfl, rfl⟩ := e1
    obtain ⟨rfl, rfl⟩ := e2
    rfl

theorem prob_proper : ProperProb [3, 3] prob := properProb_of_disjoint prob_ok.toProbShape (roundProb_flatten _ _)

theorem upd0 : ∀ v ∈ allIdx [3, 3], Function.update (T 0) [1, 1] (.fin 0) v = T 1 v := by decide +kernel

theorem upd3 : ∀ v ∈ allIdx [3, 3], Function.update (T 3) [1, 1] (.fin 0) v = T 4 v := by decide +kernel

theorem drawn {n : Nat} (hn : n < 4) (h : Facts fp) {seq : List U32} (hp : PointAt 2 (n + 1) seq) :
    Drawn fp seq [3, 3] (T n) (vs.getD n []) := by
  obtain ⟨p0, p1⟩ := points hn hp
  have hj := h.pickj n hn
  have hi := h.picki n hn
  rw [← p1] at hj
  rw [← p0] at hi
  have hb : (((vs.getD n []).getD 1 0).toNat < 3 ∧ ((vs.getD n []).getD 0 0).toNat < 3) ∧
      vs.getD n [] = [((((vs.getD n []).getD 0 0).toNat : Nat) : Int)] ++ [((((vs.getD n []).getD 1 0).toNat : Nat) : Int)] ∧
      (vs.getD n []).getD 1 0 = ((((vs.getD n []).getD 1 0).toNat : Nat) : Int) := by
    clear hj hi hp p0 p1
    revert n
    decide +kernel
  obtain ⟨⟨b1, b0⟩, b2, b3⟩ := hb
  rw [b2]
  refine .snoc [3] 3 _ _ _ (by simp) b1 hj (.one 3 _ _ b0 ?_)
  rw [b3] at hi
  simpa using hi

theorem script (h : Facts fp) : Script fp [3, 3] prob (T 0) vs T where
  first c hc := fit_once prob_ok.toProbShape prob_proper h.conv0 h.sw0 hc
  draw n hn seq hp := drawn hn h hp
  keep n hn hlt v hv := by
    have hn : n < 4 := hn
    interval_cases n
    · show Function.update (T 0) [1, 1] (fp.sub (T 0 [1, 1]) (.fin 1)) v = T 1 v
      rw [h.sub0, upd0 v (mem_allIdx.mpr hv)]
    · exact absurd (h.sub1.symm.trans hlt) (by simp)
    · exact absurd (h.sub2.symm.trans hlt) (by simp)
    · show Function.update (T 3) [1, 1] (fp.sub (T 3 [1, 1]) (.fin 1)) v = T 4 v
      rw [h.sub3, upd3 v (mem_allIdx.mpr hv)]
  refit n hn hlt c hc := by
    have hn : n < 4 := hn
    have h0 : FP.lt (.fin 0) (.fin 0) = false := by decide +kernel
    interval_cases n
    · have : FP.lt (fp.sub (T 0 [1, 1]) (.fin 1)) (.fin 0) = true := hlt
      rw [h.sub0, h0] at this
      cases this
    · exact fit_once (shape_remaining prob_ok.toProbShape _) (properProb_remaining prob_proper _) h.conv2 h.sw2 hc
    · exact fit_once (shape_remaining prob_ok.toProbShape _) (properProb_remaining prob_proper _) h.conv3 h.sw3 hc
    · have : FP.lt (fp.sub (T 3 [1, 1]) (.fin 1)) (.fin 0) = true := hlt
      rw [h.sub3, h0] at this
      cases this
  rest := by
    show ∀ n < 4, _
    decide +kernel

/-- what `integerise` returns for the table -/
def res (v : List Int) : Int := if v = [1, 1] then 2 else if v = [0, 2] ∨ v = [2, 0] then 1 else 0

theorem stray_run (hfp : fp.Good) (h : Facts fp) (lm : Libm) :
    ∃ r, run false fp lm (arr [3, 3] (T 0)) = .ok r ∧ r.conv = true ∧ r.result = arr [3, 3] res := by
  have hg : GoodShape [3, 3] := ⟨by simp, by simp⟩
  obtain ⟨x, hx, hm, hc⟩ := qisi_script hfp lm prob_ok (by norm_num) prob_proper (by simp) (skips := 0) le_rfl (by norm_num)
    (script h) (by decide)
  have hconv : x.conv = true := by
    rw [hc]
    show ∀ p ∈ prob, ∀ v ∈ vs.reverse, _
    decide +kernel
  have harr : x.micro.array = arr [3, 3] res := by
    rw [hm]
    have : ∀ v ∈ allIdx [3, 3], (vs.count v : Int) = res v := by decide +kernel
    exact arr_congr (fun v hv => this v (mem_allIdx.mpr hv))
  have hck : ∀ d < ([3, 3] : List Nat).length, ∀ i < ([3, 3] : List Nat).getD d 0,
      checkedRound fp (fsum fp [3, 3] [d] (T 0) [(i : Int)]) = .ok (sums d i) := by
    intro d hd i hi
    refine h.round d hd i ?_
    simp only [List.length_cons, List.length_nil] at hd
    interval_cases d <;> exact hi
  obtain ⟨e, he⟩ := sqErr_ok (fp := fp) hg res (T 0)
  refine ⟨⟨arr [3, 3] res, x.conv, fp.sqrt (fp.div e (fp.ofInt (arr [3, 3] res).storageSize))⟩, ?_, hconv, rfl⟩
  have hx' : qisi fp lm [3, 3] (roundProb [3, 3] sums) (T 0) 0 = .ok x := hx
  rw [run_array (by simp), h.total, h.roundT, Out.ok_bind, array_eq hg lm hck, hx', Out.ok_bind, harr, copy_empty hg, Out.ok_bind, he]
  rfl

end Stray
end Integerise
end HL
