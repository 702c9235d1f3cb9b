import Verif.Proof.IntegeriseVector
import Verif.Proof.QISIDisjoint

/-
A 3 x 3 table for which multidimensional integerisation does not find the closest table.
-/

namespace HL
namespace Integerise

/-- the table of sizes 3 x 3 with the entries `l` -/
def tab3 (l : List ℚ) (v : List Int) : ℚ := l.getD (3 * (v.getD 0 0).toNat + (v.getD 1 0).toNat) 0

/-- the table to be integerised -/
def t0 : List ℚ := [3 / 10, 2 / 5, 3 / 10, 2 / 5, 1 / 5, 2 / 5, 3 / 10, 2 / 5, 3 / 10]

def t1 : List ℚ := [1 / 2, 0, 1 / 2, 0, 0, 0, 1 / 2, 0, 1 / 2]

def t2 : List ℚ := [0, 0, 1, 0, 0, 0, 0, 0, 0]

def ones : Prob Int := roundProb [3, 3] (fun _ _ => 1)

theorem sw0 : ∀ v ∈ allIdx [3, 3], qsweep [3, 3] (ratProb ones) (tab3 t0) v = tab3 t0 v := by decide +kernel

theorem sw1 : ∀ v ∈ allIdx [3, 3], qsweep [3, 3] (ratProb (remaining [[1, 1]] ones)) (tab3 t0) v = tab3 t1 v := by decide +kernel

theorem sw2 : ∀ v ∈ allIdx [3, 3], qsweep [3, 3] (ratProb (remaining [[2, 0], [1, 1]] ones)) (tab3 t0) v = tab3 t2 v := by decide +kernel

/-- the marginals of the three fits are met after one sweep -/
theorem meet0 : ∀ p ∈ ones, ∀ j ∈ allIdx (projSizes p.1 [3, 3]), marginalSum [3, 3] p.1 (tab3 t0) j = (p.2 j : ℚ) := by
  decide +kernel

theorem meet1 : ∀ p ∈ remaining [[1, 1]] ones, ∀ j ∈ allIdx (projSizes p.1 [3, 3]),
    marginalSum [3, 3] p.1 (tab3 t1) j = (p.2 j : ℚ) := by
  decide +kernel

theorem meet2 : ∀ p ∈ remaining [[2, 0], [1, 1]] ones, ∀ j ∈ allIdx (projSizes p.1 [3, 3]),
    marginalSum [3, 3] p.1 (tab3 t2) j = (p.2 j : ℚ) := by
  decide +kernel

theorem nn (l : List ℚ) (h : ∀ v ∈ allIdx [3, 3], 0 ≤ tab3 l v) : ∀ v, InRange [3, 3] v → 0 ≤ tab3 l v :=
  fun v hv => h v (mem_allIdx.mpr hv)

/-- a fit that meets its marginals after one sweep is that sweep -/
theorem fit_one {s : List Nat} {Q : Prob Int} (hQ : ProbShape s Q) (hp : ProperProb s Q) {b b' : List Int → ℚ}
    {sd c : List Int → Fl} (hb : Agree s sd b) (hsw : ∀ v ∈ allIdx s, qsweep s (ratProb Q) b v = b' v)
    (hm : ∀ p ∈ Q, ∀ j ∈ allIdx (projSizes p.1 s), marginalSum s p.1 b' j = (p.2 j : ℚ)) (hf : Fit FP.exact s Q sd c) :
    Agree s c b' := by
  obtain ⟨n, hn, hag, hmin, -⟩ := fit_exact hQ hp hb hf
  have hsw' : ∀ v, InRange s v → (qsweep s (ratProb Q))^[1] b v = b' v := fun v hv => hsw v (mem_allIdx.mpr hv)
  have hq0 : qmax s (ratProb Q) ((qsweep s (ratProb Q))^[1] b) = 0 :=
    (qmax_congr _ hsw').trans (qmax_zero (probShape_congr (fst_ratProb Q).symm hQ) (by
      intro q hq j hj
      obtain ⟨p, hp, rfl⟩ := List.mem_map.mp hq
      exact hm p hp j (mem_allIdx.mpr hj)))
  have h1 : n = 1 := by
    by_contra hne
    have := hmin 1 le_rfl (by omega)
    rw [hq0] at this
    norm_num at this
  subst h1
  intro v hv
  rw [hag v hv, hsw' v hv]

/-! ### The points -/

def dir1 (j : Nat) : BitVec 32 := (fun x : BitVec 32 => x ^^^ (x <<< 1))^[j] 1

theorem isDir0 : IsDirection 0 (fun _ => 1) := fun _ _ => rfl

theorem isDir1 : IsDirection 1 dir1 := by
  show (∀ j < _, _) ∧ _
  decide +kernel

theorem point1 {seq : List U32} (h : PointAt 2 1 seq) : seq.getD 0 0 = 2147483648#32 ∧ seq.getD 1 0 = 2147483648#32 := by
  refine ⟨(h.2 0 (by norm_num) _ isDir0).trans (by decide +kernel), (h.2 1 (by norm_num) _ isDir1).trans (by decide +kernel)⟩

theorem point2 {seq : List U32} (h : PointAt 2 2 seq) : seq.getD 0 0 = 3221225472#32 ∧ seq.getD 1 0 = 1073741824#32 := by
  refine ⟨(h.2 0 (by norm_num) _ isDir0).trans (by decide +kernel), (h.2 1 (by norm_num) _ isDir1).trans (by decide +kernel)⟩

/-! ### The draws -/

theorem draw3 {seq : List U32} {a : List Int → Fl} {v : List Int} (hd : Drawn FP.exact seq [3, 3] a v) :
    ∃ i j : Nat, v = [(i : Int), (j : Int)] ∧ i < 3 ∧ j < 3 ∧
      pick FP.exact (numFl FP.exact) (lastSumsF FP.exact [3] 3 a) (variate FP.exact (seq.getD 1 0)) = .ok j ∧
      pick FP.exact (numFl FP.exact) ((List.range 3).map (fun i : Nat => a [(i : Int), (j : Int)])) (variate FP.exact (seq.getD 0 0)) = .ok i := by
  obtain ⟨j, v', rfl, hj, hp, hd'⟩ := drawn_inv hd (t := [3]) (n := 3) rfl (by simp)
  obtain ⟨i, rfl, hi, hp'⟩ := drawn_one hd' rfl
  exact ⟨i, j, rfl, hi, hj, hp, hp'⟩

theorem pick1a : pick FP.exact (numFl FP.exact) (lastSumsF FP.exact [3] 3 (fun v => .fin (tab3 t0 v)))
    (variate FP.exact 2147483648#32) = .ok 1 := by decide +kernel

theorem pick1b : pick FP.exact (numFl FP.exact) ((List.range 3).map (fun i : Nat => .fin (tab3 t0 [(i : Int), ((1 : Nat) : Int)])))
    (variate FP.exact 2147483648#32) = .ok 1 := by decide +kernel

theorem pick2a : pick FP.exact (numFl FP.exact) (lastSumsF FP.exact [3] 3 (fun v => .fin (tab3 t1 v)))
    (variate FP.exact 1073741824#32) = .ok 0 := by decide +kernel

theorem pick2b : pick FP.exact (numFl FP.exact) ((List.range 3).map (fun i : Nat => .fin (tab3 t1 [(i : Int), ((0 : Nat) : Int)])))
    (variate FP.exact 3221225472#32) = .ok 2 := by decide +kernel

/-! ### The run -/

theorem ones_ok : ProbOK [3, 3] ones 3 := by
  have hg : GoodShape [3, 3] := ⟨by simp, by simp⟩
  refine ⟨roundProb_shape hg (by simp) _, ?_, ?_, ?_⟩
  · intro p hp j _
    obtain ⟨d, -, rfl⟩ := List.mem_map.mp hp
    show (0 : Int) ≤ 1
    norm_num
  · have : ∀ p ∈ ones, ∑ j ∈ cells (projSizes p.1 [3, 3]), p.2 j = 3 := by decide +kernel
    exact this
  · intro p hp q hq a b d hpa hqb x _
    obtain ⟨d1, -, rfl⟩ := List.mem_map.mp hp
    obtain ⟨d2, -, rfl⟩ := List.mem_map.mp hq
    have e1 : a = 0 ∧ d1 = d := by
      cases a with
      | zero => simpa using hpa
      | succ a => simp at hpa
    have e2 : b = 0 ∧ d2 = d := by
      cases b with
      | zero => simpa using hqb
      | succ b => simp at hqb
    obtain ⟨rfl, rfl⟩ := e1
    obtain ⟨rfl, rfl⟩ := e2
    rfl

theorem ones_proper : ProperProb [3, 3] ones := properProb_of_disjoint ones_ok.toProbShape (roundProb_flatten _ _)

def seed3 (v : List Int) : Fl := .fin (tab3 t0 v)

theorem fitA {c : List Int → Fl} (hf : Fit FP.exact [3, 3] ones seed3 c) : Agree [3, 3] c (tab3 t0) :=
  fit_one ones_ok.toProbShape ones_proper (fun _ _ => rfl) sw0 meet0 hf

theorem fitB {c : List Int → Fl} (hf : Fit FP.exact [3, 3] (remaining [[1, 1]] ones) seed3 c) : Agree [3, 3] c (tab3 t1) :=
  fit_one (shape_remaining ones_ok.toProbShape _) (properProb_remaining ones_proper _) (fun _ _ => rfl) sw1 meet1 hf

theorem fitC {c : List Int → Fl} (hf : Fit FP.exact [3, 3] (remaining [[2, 0], [1, 1]] ones) seed3 c) : Agree [3, 3] c (tab3 t2) :=
  fit_one (shape_remaining ones_ok.toProbShape _) (properProb_remaining ones_proper _) (fun _ _ => rfl) sw2 meet2 hf

theorem in3 {i j : Nat} (hi : i < 3) (hj : j < 3) : InRange [3, 3] [(i : Int), (j : Int)] := by
  unfold InRange
  refine .cons ⟨by omega, by exact_mod_cast hi⟩ (.cons ⟨by omega, by exact_mod_cast hj⟩ .nil)

theorem drawA {a : List Int → Fl} {seq : List U32} {v : List Int} (ha : Agree [3, 3] a (tab3 t0)) (hp : PointAt 2 1 seq)
    (hd : Drawn FP.exact seq [3, 3] a v) : v = [1, 1] := by
  have hd' := drawn_congr (a' := fun v => .fin (tab3 t0 v)) ha hd
  obtain ⟨i, j, rfl, -, -, h1, h2⟩ := draw3 hd'
  rw [(point1 hp).2, pick1a] at h1
  injection h1 with h1
  subst h1
  rw [(point1 hp).1, pick1b] at h2
  injection h2 with h2
  subst h2
  rfl

theorem drawB {a : List Int → Fl} {seq : List U32} {v : List Int} (ha : Agree [3, 3] a (tab3 t1)) (hp : PointAt 2 2 seq)
    (hd : Drawn FP.exact seq [3, 3] a v) : v = [2, 0] := by
  have hd' := drawn_congr (a' := fun v => .fin (tab3 t1 v)) ha hd
  obtain ⟨i, j, rfl, -, -, h1, h2⟩ := draw3 hd'
  rw [(point2 hp).2, pick2a] at h1
  injection h1 with h1
  subst h1
  rw [(point2 hp).1, pick2b] at h2
  injection h2 with h2
  subst h2
  rfl

theorem t2_only : ∀ v ∈ allIdx [3, 3], tab3 t2 v ≠ 0 → v = [0, 2] := by decide +kernel

theorem drawC {a : List Int → Fl} {seq : List U32} {v : List Int} (ha : Agree [3, 3] a (tab3 t2))
    (hd : Drawn FP.exact seq [3, 3] a v) : v = [0, 2] := by
  obtain ⟨i, j, rfl, hi, hj, -⟩ := draw3 hd
  have h1 := (drawn_ne signOK_exact hd (fun w hw => by
    rw [ha w hw]
    right
    have : 0 ≤ tab3 t2 w := nn t2 (by decide +kernel) w hw
    simpa [FP.le] using this)).1
  rw [ha _ (in3 hi hj)] at h1
  exact t2_only _ (mem_allIdx.mpr (in3 hi hj)) (fun e => h1 (by rw [e]))

theorem drawD {a : List Int → Fl} {seq : List U32} {v : List Int} (ha : Agree [3, 3] a (fun _ => 0))
    (hd : Drawn FP.exact seq [3, 3] a v) : False := by
  obtain ⟨i, j, rfl, hi, hj, -⟩ := draw3 hd
  have h1 := (drawn_ne signOK_exact hd (fun w hw => by
    rw [ha w hw]
    right
    simp [FP.le])).1
  rw [ha _ (in3 hi hj)] at h1
  exact h1 rfl

theorem sub3 {a : List Int → Fl} {l : List ℚ} (ha : Agree [3, 3] a (tab3 l)) {v : List Int} (hv : InRange [3, 3] v) :
    FP.exact.sub (a v) (.fin 1) = .fin (tab3 l v - 1) := by
  rw [ha v hv, sub_eq_add_neg]; rfl

theorem placed3 {hs : List (List Int)} {a : List Int → Fl} (h : Placed FP.exact [3, 3] ones seed3 hs a) :
    (hs = [] ∧ Agree [3, 3] a (tab3 t0)) ∨ (hs = [[1, 1]] ∧ Agree [3, 3] a (tab3 t1)) ∨
    (hs = [[2, 0], [1, 1]] ∧ Agree [3, 3] a (tab3 t2)) ∨ (hs = [[0, 2], [2, 0], [1, 1]] ∧ Agree [3, 3] a (fun _ => 0)) := by
  induction h with
  | start c hc => exact Or.inl ⟨rfl, fitA hc⟩
  | keep hs a seq v _ hpt hdr hlt ih =>
    rcases ih with ⟨rfl, ha⟩ | ⟨rfl, ha⟩ | ⟨rfl, ha⟩ | ⟨rfl, ha⟩
    · obtain rfl := drawA ha hpt hdr
      rw [sub3 ha (by decide : InRange [3, 3] [1, 1])] at hlt
      exact absurd hlt (by decide +kernel)
    · obtain rfl := drawB ha hpt hdr
      rw [sub3 ha (by decide : InRange [3, 3] [2, 0])] at hlt
      exact absurd hlt (by decide +kernel)
    · obtain rfl := drawC ha hdr
      refine Or.inr (Or.inr (Or.inr ⟨rfl, ?_⟩))
      intro v hv
      have h1 := sub3 ha (by decide : InRange [3, 3] [0, 2])
      have e : tab3 t2 [0, 2] - 1 = 0 := by decide +kernel
      rw [e] at h1
      by_cases hv' : v = [0, 2]
      · subst hv'
        rw [Function.update_self]
        exact h1
      · rw [Function.update_of_ne hv', ha v hv]
        congr 1
        by_contra hc
        exact hv' (t2_only v (mem_allIdx.mpr hv) hc)
    · exact (drawD ha hdr).elim
  | refit hs a seq v c _ hpt hdr hlt hf ih =>
    rcases ih with ⟨rfl, ha⟩ | ⟨rfl, ha⟩ | ⟨rfl, ha⟩ | ⟨rfl, ha⟩
    · obtain rfl := drawA ha hpt hdr
      exact Or.inr (Or.inl ⟨rfl, fitB hf⟩)
    · obtain rfl := drawB ha hpt hdr
      exact Or.inr (Or.inr (Or.inl ⟨rfl, fitC hf⟩))
    · obtain rfl := drawC ha hdr
      rw [sub3 ha (by decide : InRange [3, 3] [0, 2])] at hlt
      exact absurd hlt (by decide +kernel)
    · exact (drawD ha hdr).elim

theorem fits3 (Q : Prob Int) (c : List Int → Fl) (h : FitDone FP.exact [3, 3] ones seed3 Q c) :
    ∃ b, Agree [3, 3] c b ∧ Meets [3, 3] Q b := by
  obtain ⟨hf, rfl | ⟨hs, a, seq, v, hpl, hpt, hdr, hlt, rfl⟩⟩ := h
  · exact ⟨_, fitA hf, nn t0 (by decide +kernel), fun p hp j hj => meet0 p hp j (mem_allIdx.mpr hj)⟩
  · rcases placed3 hpl with ⟨rfl, ha⟩ | ⟨rfl, ha⟩ | ⟨rfl, ha⟩ | ⟨rfl, ha⟩
    · obtain rfl := drawA ha hpt hdr
      exact ⟨_, fitB hf, nn t1 (by decide +kernel), fun p hp j hj => meet1 p hp j (mem_allIdx.mpr hj)⟩
    · obtain rfl := drawB ha hpt hdr
      exact ⟨_, fitC hf, nn t2 (by decide +kernel), fun p hp j hj => meet2 p hp j (mem_allIdx.mpr hj)⟩
    · obtain rfl := drawC ha hdr
      rw [sub3 ha (by decide : InRange [3, 3] [0, 2])] at hlt
      exact absurd hlt (by decide +kernel)
    · exact (drawD ha hdr).elim

/-- what `integerise` returns for the table -/
def res3 (v : List Int) : Int := if v = [0, 2] ∨ v = [1, 1] ∨ v = [2, 0] then 1 else 0

theorem run3 (lm : Libm) : ∃ r, run false FP.exact lm (arr [3, 3] seed3) = .ok r ∧ r.conv = true ∧ r.result = arr [3, 3] res3 := by
  have hg : GoodShape [3, 3] := ⟨by simp, by simp⟩
  obtain ⟨x, hx, hconv⟩ := qisi_meets lm ones_ok (by norm_num) ones_proper (by simp) (skips := 0) le_rfl (by norm_num) fits3
  obtain ⟨E, a, vs, hS⟩ := qisi_run_ok FP.exact_good ones_ok (by norm_num) ones_proper hx
  have hlen : (vs.length : Int) = 3 := by
    have := hS.size
    omega
  have hvs : vs = [[0, 2], [2, 0], [1, 1]] := by
    rcases placed3 hS.placed with ⟨rfl, -⟩ | ⟨rfl, -⟩ | ⟨rfl, -⟩ | ⟨rfl, -⟩
    · simp at hlen
    · simp at hlen
    · simp at hlen
    · rfl
  have harr : x.micro.array = arr [3, 3] res3 := by
    rw [show x.micro.array = arr [3, 3] (fun v => (vs.count v : Int)) by rw [hS.at_.micro], hvs]
    have : ∀ v ∈ allIdx [3, 3], (([[0, 2], [2, 0], [1, 1]] : List (List Int)).count v : Int) = res3 v := by decide +kernel
    exact arr_congr (fun v hv => this v (mem_allIdx.mpr hv))
  have hag : Agree [3, 3] seed3 (tab3 t0) := fun _ _ => rfl
  have hck : ∀ d < ([3, 3] : List Nat).length, ∀ i < ([3, 3] : List Nat).getD d 0,
      checkedRound FP.exact (fsum FP.exact [3, 3] [d] seed3 [(i : Int)]) = .ok ((fun _ _ => 1 : Nat → Nat → Int) d i) := by
    intro d hd i hi
    have : ∀ d < 2, ∀ i < 3, marginalSum [3, 3] [d] (tab3 t0) [((i : Nat) : Int)] = 1 := by decide +kernel
    have h2 : i < 3 := by
      simp only [List.length_cons, List.length_nil] at hd
      interval_cases d <;> exact hi
    rw [fsum_exact hag, this d hd i h2]
    exact checkedRound_of (nearInt_exact.mpr (by norm_num)) (by norm_num)
  have hT : ∑ v ∈ cells [3, 3], tab3 t0 v = 3 := by decide +kernel
  obtain ⟨e, he⟩ := sqErr_ok (fp := FP.exact) hg res3 seed3
  refine ⟨⟨arr [3, 3] res3, x.conv, FP.exact.sqrt (FP.exact.div e (FP.exact.ofInt (arr [3, 3] res3).storageSize))⟩, ?_, hconv, rfl⟩
  have hx' : qisi FP.exact lm [3, 3] (roundProb [3, 3] (fun _ _ => 1)) seed3 0 = .ok x := hx
  have hss : seqSum (numFl FP.exact) [3, 3] seed3 = .fin 3 := by
    have := seqSum_fin (t := [3, 3]) (g := tab3 t0)
    rw [hT] at this
    exact this
  rw [run_array (by simp), hss, checkedRound_of (n := 3) (nearInt_exact.mpr (by norm_num)) (by norm_num [abs_of_pos]),
    Out.ok_bind, array_eq hg lm hck, hx', Out.ok_bind, harr, copy_empty hg, Out.ok_bind, he]
  rfl

end Integerise
end HL
