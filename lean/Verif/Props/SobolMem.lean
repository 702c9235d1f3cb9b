import Verif.Proof.SobolMemRun

/-
C87: the Sobol generators as a program uses them, at the level of the memory they allocate.
-/

namespace HL.SMem

/-- C87, when no allocation fails: whatever generators a program creates, draws from, skips, resets and destroys, in whatever
order, it sees exactly what it would see if every generator were a value of its own with no memory behind it.  In particular
no draw reads or writes out of bounds, reads what was not written, uses freed memory or frees twice, since none of those
outcomes exists for the values. -/
theorem C87_refines (ops : List Op) (hok : ∀ op ∈ ops, Succeeds op) :
    Prod.snd <$> run ⟨[], []⟩ ops = Prod.snd <$> vrun [] ops := by
  have hn : NoNull (⟨[], []⟩ : St).objs := fun i x h => by simp at h
  rcases run_ends ops (st := ⟨[], []⟩) sim_nil with ⟨st', fs', xs', rs, e, -, hv⟩ | ⟨e, -, hv⟩ | ⟨-, -, h⟩
  · rw [e, hv hok hn]; rfl
  · rw [e, hv hok hn]; rfl
  · exact absurd ⟨hok, hn⟩ h

/-- C87 in part: any program, any allocations failing.  Either it ends, and then exactly four blocks are allocated for each
generator that exists; or it asks to skip more than 2^31 points, which never ends; or it draws from a generator for which an
allocation had failed, which dereferences a null pointer.  The last case is what is missing from C87: see `C87_negation`. -/
theorem C87_safe_partial (ops : List Op) :
    (∃ st rs, run ⟨[], []⟩ ops = .ok (st, rs) ∧ allocated st.mem = 4 * existing st.objs) ∨
    (run ⟨[], []⟩ ops = .diverges ∧ ∃ op ∈ ops, SkipsTooFar op) ∨
    (run ⟨[], []⟩ ops = .ub .nullDeref ∧
      ∃ pre op post st rs, ops = pre ++ op :: post ∧ run ⟨[], []⟩ pre = .ok (st, rs) ∧ DrawsFromNull st op) := by
  rcases run_ends ops (st := ⟨[], []⟩) sim_nil with ⟨st', fs', xs', rs, e, S, -⟩ | ⟨e, h, -⟩ | ⟨e, h, -⟩
  · exact Or.inl ⟨st', rs, e, S.allocated⟩
  · exact Or.inr (Or.inl ⟨e, h⟩)
  · exact Or.inr (Or.inr ⟨e, h⟩)

/-- C87, when no allocation fails and nothing skips too far: the program ends, and has allocated four blocks for each generator
that exists. -/
theorem C87_ends (ops : List Op) (hok : ∀ op ∈ ops, Succeeds op) (hs : ∀ op ∈ ops, ¬ SkipsTooFar op) :
    ∃ st rs, run ⟨[], []⟩ ops = .ok (st, rs) ∧ allocated st.mem = 4 * existing st.objs := by
  have hn : NoNull (⟨[], []⟩ : St).objs := fun i x h => by simp at h
  rcases run_ends ops (st := ⟨[], []⟩) sim_nil with ⟨st', fs', xs', rs, e, S, -⟩ | ⟨-, ⟨op, hm, h⟩, -⟩ | ⟨-, -, h⟩
  · exact ⟨st', rs, e, S.allocated⟩
  · exact absurd h (hs op hm)
  · exact absurd ⟨hok, hn⟩ h

/-- C87: nothing leaks, whichever allocations failed on the way: once every generator is destroyed, no block is allocated. -/
theorem C87_no_leak (ops : List Op) {st : St} {rs : List Res} (h : run ⟨[], []⟩ ops = .ok (st, rs)) (hd : ∀ o ∈ st.objs, o = none) :
    allocated st.mem = 0 := by
  have he : existing st.objs = 0 := by
    unfold existing
    rw [List.length_eq_zero_iff, List.filter_eq_nil_iff]
    intro o ho
    rw [hd o ho]; simp
  rcases C87_safe_partial ops with ⟨st', rs', e, ha⟩ | ⟨e, -⟩ | ⟨e, -⟩
  · rw [h] at e
    cases e
    rw [ha, he]
  · rw [h] at e; cases e
  · rw [h] at e; cases e

/-- The generator an operation is about; `none` for creating one. -/
def Op.on : Op → Option Nat
  | .make .. => none
  | .next i => some i
  | .call i => some i
  | .skip i _ => some i
  | .reset i _ _ => some i
  | .destroy i => some i

theorem vstep_local {op : Op} {i : Nat} (hi : op.on = some i) {xs xs' : List (Option Sobol)} {r : Res} (h : vstep xs op = .ok (xs', r)) :
    ∃ o, xs' = xs.set i o ∧ ∀ ys : List (Option Sobol), ys[i]? = xs[i]? → vstep ys op = .ok (ys.set i o, r) := by
  have idle : ∀ {op : Op}, vstep xs op = .ok (xs', r) → (∀ ys : List (Option Sobol), ys[i]? = xs[i]? → vstep ys op = .ok (ys, .done)) →
      (∀ x, xs[i]? ≠ some (some x)) →
      ∃ o, xs' = xs.set i o ∧ ∀ ys : List (Option Sobol), ys[i]? = xs[i]? → vstep ys op = .ok (ys.set i o, r) := by
    intro op h hd hx
    have h' := hd xs rfl
    rw [h] at h'
    cases h'
    have hset : ∀ ys : List (Option Sobol), ys[i]? = xs[i]? → ys.set i none = ys := by
      intro ys hy
      cases hc : xs[i]? with
      | none =>
        rw [hc] at hy
        exact List.set_eq_of_length_le (List.getElem?_eq_none_iff.mp hy)
      | some o =>
        cases o with
        | some x => exact absurd hc (hx x)
        | none =>
          rw [hc] at hy
          apply List.ext_getElem?
          intro j
          by_cases hj : i = j
          · subst hj
            rw [List.getElem?_set_self (List.getElem?_eq_some_iff.mp hy).1, hy]
          · rw [List.getElem?_set_ne hj]
    exact ⟨none, (hset _ rfl).symm, fun ys hy => by rw [hset ys hy]; exact hd ys hy⟩
  cases hc : xs[i]? with
  | none =>
    rw [← hc]
    refine idle h (fun ys hy => ?_) (by simp [hc])
    rw [hc] at hy
    cases op <;> simp only [Op.on, Option.some.injEq, reduceCtorEq] at hi <;> subst hi <;> simp only [vstep, hy]
  | some o =>
    cases o with
    | none =>
      rw [← hc]
      refine idle h (fun ys hy => ?_) (by simp [hc])
      rw [hc] at hy
      cases op <;> simp only [Op.on, Option.some.injEq, reduceCtorEq] at hi <;> subst hi <;> simp only [vstep, hy]
    | some x =>
      cases op with
      | make => cases hi
      | next j =>
        cases hi
        simp only [vstep, hc, Out.bind_eq_ok] at h
        obtain ⟨⟨x', q⟩, e, h⟩ := h
        cases h
        exact ⟨some x', rfl, fun ys hy => by simp only [vstep, hy, e, Out.ok_bind]; rfl⟩
      | call j =>
        cases hi
        simp only [vstep, hc, Out.bind_eq_ok] at h
        obtain ⟨⟨x', q⟩, e, h⟩ := h
        cases h
        exact ⟨some x', rfl, fun ys hy => by simp only [vstep, hy, e, Out.ok_bind]; rfl⟩
      | skip j n =>
        cases hi
        simp only [vstep, hc, Out.bind_eq_ok] at h
        obtain ⟨x', e, h⟩ := h
        cases h
        exact ⟨some x', rfl, fun ys hy => by simp only [vstep, hy, e, Out.ok_bind]; rfl⟩
      | reset j n ok =>
        cases hi
        simp only [vstep, hc, Out.bind_eq_ok] at h
        obtain ⟨x', e, h⟩ := h
        cases h
        exact ⟨some x', rfl, fun ys hy => by simp only [vstep, hy, e, Out.ok_bind]; rfl⟩
      | destroy j =>
        cases hi
        simp only [vstep, hc] at h
        cases h
        exact ⟨none, rfl, fun ys hy => by simp only [vstep, hy]⟩

theorem vrun_append {xs : List (Option Sobol)} (a b : List Op) :
    vrun xs (a ++ b) = (do let (xs, ra) ← vrun xs a; let (xs, rb) ← vrun xs b; pure (xs, ra ++ rb)) := by
  induction a generalizing xs with
  | nil =>
    show vrun xs b = (do let (xs, rb) ← vrun xs b; pure (xs, rb))
    cases vrun xs b <;> rfl
  | cons op a ih =>
    show (do let (xs, r) ← vstep xs op; let (xs, rs) ← vrun xs (a ++ b); pure (xs, r :: rs)) = _
    simp only [vrun]
    cases h : vstep xs op with
    | ok p =>
      obtain ⟨xs1, r⟩ := p
      simp only [Out.ok_bind]
      rw [ih]
      cases h2 : vrun xs1 a with
      | ok q =>
        obtain ⟨xs2, rs⟩ := q
        simp only [Out.ok_bind, Out.pure_eq]
        cases vrun xs2 b <;> rfl
      | thrown e => rfl
      | ub u => rfl
      | diverges => rfl
    | thrown e => rfl
    | ub u => rfl
    | diverges => rfl

theorem vrun_length {ops : List Op} : ∀ {xs xs' : List (Option Sobol)} {rs : List Res}, vrun xs ops = .ok (xs', rs) → rs.length = ops.length := by
  induction ops with
  | nil => intro xs xs' rs h; cases h; rfl
  | cons op ops ih =>
    intro xs xs' rs h
    simp only [vrun, Out.bind_eq_ok] at h
    obtain ⟨⟨x1, r⟩, -, ⟨x2, rs2⟩, e, h⟩ := h
    cases h
    simp [ih e]

/-- C87: two generators do not influence one another.  Exchanging two consecutive operations on different generators, anywhere
in a program, changes nothing a program sees but the order of those two results. -/
theorem C87_interleave {pre post : List Op} {a b : Op} {i j : Nat} (ha : a.on = some i) (hb : b.on = some j) (hij : i ≠ j)
    (hok : ∀ op ∈ pre ++ a :: b :: post, Succeeds op) {st : St} {r1 r2 : List Res} {ra rb : Res} (hl : r1.length = pre.length)
    (h : run ⟨[], []⟩ (pre ++ a :: b :: post) = .ok (st, r1 ++ ra :: rb :: r2)) :
    ∃ st', run ⟨[], []⟩ (pre ++ b :: a :: post) = .ok (st', r1 ++ rb :: ra :: r2) := by
  have e1 := C87_refines _ hok
  have e2 := C87_refines (pre ++ b :: a :: post) (fun op ho => hok op (by
    simp only [List.mem_append, List.mem_cons] at ho ⊢
    tauto))
  rw [h] at e1
  have hv : ∃ xs, vrun [] (pre ++ a :: b :: post) = .ok (xs, r1 ++ ra :: rb :: r2) := by
    cases hc : vrun [] (pre ++ a :: b :: post) with
    | ok p =>
      obtain ⟨xs, rs⟩ := p
      rw [hc] at e1
      cases e1
      exact ⟨xs, rfl⟩
    | thrown e => rw [hc] at e1; cases e1
    | ub u => rw [hc] at e1; cases e1
    | diverges => rw [hc] at e1; cases e1
  obtain ⟨xs, hv⟩ := hv
  rw [vrun_append] at hv
  simp only [Out.bind_eq_ok] at hv
  obtain ⟨⟨x1, q1⟩, p1, ⟨x2, q2⟩, p2, p3⟩ := hv
  simp only [vrun, Out.bind_eq_ok] at p2
  obtain ⟨⟨y1, s1⟩, p4, ⟨y2, s2⟩, ⟨⟨y3, s3⟩, p5, ⟨y4, s4⟩, p6, p7⟩, p8⟩ := p2
  cases p7; cases p8
  simp only [Out.pure_eq, Out.ok.injEq, Prod.mk.injEq] at p3
  obtain ⟨rfl, p3⟩ := p3
  obtain ⟨rfl, p9⟩ := List.append_inj p3 (by rw [vrun_length p1, hl])
  cases p9
  obtain ⟨oa, rfl, ka⟩ := vstep_local ha p4
  obtain ⟨ob, rfl, kb⟩ := vstep_local hb p5
  have w1 := kb x1 (by rw [List.getElem?_set_ne hij])
  have w2 := ka (x1.set j ob) (by rw [List.getElem?_set_ne (Ne.symm hij)])
  rw [List.set_comm _ _ (Ne.symm hij)] at w2
  have w : vrun [] (pre ++ b :: a :: post) = .ok (y4, q1 ++ rb :: ra :: r2) := by
    rw [vrun_append, p1]
    simp only [vrun, Out.ok_bind, w1, w2, p6, Out.pure_eq]
  rw [w] at e2
  cases hc : run ⟨[], []⟩ (pre ++ b :: a :: post) with
  | ok p =>
    obtain ⟨st', rs⟩ := p
    rw [hc] at e2
    cases e2
    exact ⟨st', rfl⟩
  | thrown e => rw [hc] at e2; cases e2
  | ub u => rw [hc] at e2; cases e2
  | diverges => rw [hc] at e2; cases e2

/-- C87, why generators must not be copied (the copy constructor and the assignment are deleted, Sobol.h:27-28): once a generator is destroyed,
a second object holding the same pointer cannot be destroyed or draw without using freed memory. -/
theorem C87_copied {ok : Nat → Bool} {dim : Nat} (h1 : 1 ≤ dim) (h2 : dim ≤ 1111) (hok : ∀ k < 4, ok k = true) (h : Mem) :
    ∃ s h', (create ok dim >>= fun p => destroy p >>= fun _ => pure p) h = .ok (some s, h') ∧ destroy (some s) h' = .ub .useAfterFree ∧
      ∀ out, gen (some s) out h' = .ub .useAfterFree := by
  obtain ⟨sd, hsd, -⟩ := sobolCreate_ok h1 h2
  obtain ⟨hc, e1, r, l, -⟩ := create_ok h1 h2 hok h hsd
  obtain ⟨h', e2, a, d⟩ := destroy_ok r
  have hl : h.length < h'.length := by rw [a.1, l]; omega
  have hb := d h.length (by simp [newFoot, Foot.list]) _ (List.getElem?_eq_getElem hl)
  have hload : loadS h.length h' = .ub .useAfterFree := by
    unfold loadS
    rw [List.getElem?_eq_getElem hl]
    revert hb
    generalize h'[h.length] = b
    obtain ⟨c, l⟩ := b
    rintro rfl
    cases c <;> rfl
  have hub : ∀ {β : Type} (f : Fields → M β), (loadS h.length >>= f) h' = .ub .useAfterFree := by
    intro β f
    show (loadS h.length h' >>= fun p => f p.1 p.2) = _
    rw [hload]; rfl
  have hgen : ∀ out, gen (some h.length) out h' = .ub .useAfterFree := by
    intro out
    unfold gen
    rw [bind_ok (show deref (some h.length) h' = .ok (h.length, h') from rfl)]
    exact hub _
  refine ⟨h.length, h', ?_, ?_, hgen⟩
  · rw [bind_ok e1, bind_ok (show destroy (some h.length) hc = .ok ((), h') from e2)]; rfl
  · have : freeMember h.length Fields.mdata h' = .ub .useAfterFree := hub _
    show (freeMember h.length Fields.mdata h' >>= fun p => _) = _
    rw [this]; rfl

/-- C87 is false of the code: if any allocation of the constructor fails, the constructor says nothing, and the first draw
dereferences a null pointer. -/
theorem C87_negation {dim : Nat} (h1 : 1 ≤ dim) (h2 : dim ≤ 1111) (n : Nat) {ok : Nat → Bool} (hf : ∃ k < 4, ok k = false) :
    (∃ st, run ⟨[], []⟩ [.make dim n ok] = .ok (st, [.done])) ∧
    run ⟨[], []⟩ [.make dim n ok, .next 0] = .ub .nullDeref ∧ run ⟨[], []⟩ [.make dim n ok, .call 0] = .ub .nullDeref := by
  obtain ⟨h', e, -, -, -⟩ := create_fail h1 h2 hf []
  have hs : step ⟨[], []⟩ (.make dim n ok) = .ok (⟨h', [some ⟨none, dim, List.replicate dim 0, dim⟩]⟩, .done) := by
    have : Obj.new ok dim n [] = .ok (⟨none, dim, List.replicate dim 0, dim⟩, h') := by
      unfold Obj.new
      rw [if_neg (by omega), if_neg (by omega), bind_ok e]
      by_cases hn : n > 0
      · rw [if_pos hn, skip_null rfl]
      · rw [if_neg hn]; rfl
    simp only [step, this]; rfl
  refine ⟨⟨_, by simp only [run, hs]; rfl⟩, ?_, ?_⟩
  · rw [run, hs]
    rfl
  · rw [run, hs]
    have : (⟨none, dim, List.replicate dim 0, dim⟩ : Obj).call h' = .ub .nullDeref := by
      unfold Obj.call
      rw [if_pos rfl]
      rfl
    simp only [Out.ok_bind, run, step, List.getElem?_cons_zero, this]
    rfl

/-- Two generators, interleaved, one of them reset, one left alive: the hypotheses of `C87_refines` and `C87_ends` hold and the
program ends with four blocks allocated. -/
example : ∃ st rs, run ⟨[], []⟩ [.make 2 0 (fun _ => true), .make 3 5 (fun _ => true), .next 0, .call 1, .next 1, .reset 0 7 (fun _ => true),
    .next 0, .destroy 1] = .ok (st, rs) ∧ allocated st.mem = 4 * existing st.objs :=
  C87_ends _ (by simp [Succeeds]) (by simp [SkipsTooFar])

/-- Allocations failing at every stage, on creation and on reset, and no draw from a generator without memory: this ends (it
cannot do otherwise), so the hypothesis of `C87_no_leak` is met by a program with failures. -/
example : ∃ st rs, run ⟨[], []⟩ [.make 2 0 (fun k => k != 2), .make 3 5 (fun k => k != 3), .skip 0 4, .reset 0 0 (fun k => k != 1),
    .destroy 0, .destroy 1] = .ok (st, rs) ∧ allocated st.mem = 0 := by
  obtain ⟨h0, e0, -, -, -⟩ := create_fail (ok := fun k => k != 2) (dim := 2) (by omega) (by omega) ⟨2, by omega, rfl⟩ []
  obtain ⟨h1, e1, -, -, -⟩ := create_fail (ok := fun k => k != 3) (dim := 3) (by omega) (by omega) ⟨3, by omega, rfl⟩ h0
  obtain ⟨h2, e2, -, -, -⟩ := create_fail (ok := fun k => k != 1) (dim := 2) (by omega) (by omega) ⟨1, by omega, rfl⟩ h1
  have n0 : Obj.new (fun k => k != 2) 2 0 [] = .ok (⟨none, 2, List.replicate 2 0, 2⟩, h0) := by
    unfold Obj.new
    rw [if_neg (by omega), if_neg (by omega), bind_ok e0]; rfl
  have n1 : Obj.new (fun k => k != 3) 3 5 h0 = .ok (⟨none, 3, List.replicate 3 0, 3⟩, h1) := by
    unfold Obj.new
    rw [if_neg (by omega), if_neg (by omega), bind_ok e1, if_pos (by omega), skip_null rfl]
  have n2 : (⟨none, 2, List.replicate 2 0, 2⟩ : Obj).skip 4 h1 = .ok (⟨none, 2, List.replicate 2 0, 2⟩, h1) := skip_null rfl ..
  have n3 : (⟨none, 2, List.replicate 2 0, 2⟩ : Obj).reset (fun k => k != 1) 0 h1 = .ok (⟨none, 2, List.replicate 2 0, 2⟩, h2) := by
    unfold Obj.reset
    rw [bind_ok (show destroy none h1 = .ok ((), h1) from rfl), bind_ok e2]; rfl
  have hr : run ⟨[], []⟩ [.make 2 0 (fun k => k != 2), .make 3 5 (fun k => k != 3), .skip 0 4, .reset 0 0 (fun k => k != 1),
      .destroy 0, .destroy 1] = .ok (⟨h2, [none, none]⟩, [.done, .done, .done, .done, .done, .done]) := by
    simp only [run, step, n0, n1, Out.ok_bind, List.nil_append, List.cons_append, List.getElem?_cons_zero, n2, List.set_cons_zero, n3,
      Out.pure_eq]
    rfl
  exact ⟨_, _, hr, C87_no_leak _ hr (by simp)⟩

/-- The hypotheses of `C87_interleave` are met: drawing from one generator and from another. -/
example : ∃ st ra rb, run ⟨[], []⟩ ([.make 2 0 (fun _ => true), .make 3 5 (fun _ => true)] ++ .next 0 :: .next 1 :: []) =
    .ok (st, [.done, .done] ++ ra :: rb :: []) := by
  obtain ⟨st, rs, e, -⟩ := C87_ends [.make 2 0 (fun _ => true), .make 3 5 (fun _ => true), .next 0, .next 1] (by simp [Succeeds])
    (by simp [SkipsTooFar])
  have e1 := C87_refines [.make 2 0 (fun _ => true), .make 3 5 (fun _ => true), .next 0, .next 1] (by simp [Succeeds])
  rw [e] at e1
  cases hv : vrun [] [.make 2 0 (fun _ => true), .make 3 5 (fun _ => true), .next 0, .next 1] with
  | ok p =>
    obtain ⟨xs, rs'⟩ := p
    rw [hv] at e1
    cases e1
    have hl := vrun_length hv
    simp only [vrun, Out.bind_eq_ok] at hv
    obtain ⟨⟨x1, s1⟩, p1, ⟨x2, s2⟩, ⟨⟨x3, s3⟩, p3, ⟨x4, s4⟩, ⟨⟨x5, s5⟩, p5, ⟨x6, s6⟩, ⟨⟨x7, s7⟩, p7, ⟨x8, s8⟩, p8, q8⟩, q6⟩, q4⟩, q2⟩ := hv
    cases p8; cases q8; cases q6; cases q4; cases q2
    have hmake : ∀ {xs ys : List (Option Sobol)} {d n : Nat} {r : Res}, 1 ≤ d → d ≤ 1111 → vstep xs (.make d n (fun _ => true)) = .ok (ys, r) →
        r = .done := by
      intro xs ys d n r h1 h2 h
      simp only [vstep] at h
      cases hc : Sobol.new d n with
      | ok x => rw [hc] at h; cases h; rfl
      | thrown ex =>
        exfalso
        unfold Sobol.new at hc
        rw [if_neg (by omega), if_neg (by omega)] at hc
        obtain ⟨sd, e, o⟩ := sobolCreate_ok h1 h2
        obtain ⟨sd', hsd, hx⟩ := fresh (h := []) h1 h2 (fun _ => true) (buf := List.replicate d 0) (by simp) (pos := d) le_rfl
        rcases hx with ⟨-, h', -, -, -, ob⟩ | ⟨hk, -⟩
        · rw [hsd] at hc
          simp only [Out.ok_bind] at hc
          by_cases hn : n > 0
          · rw [if_pos hn] at hc
            rcases skip_sim ob n with ⟨_, _, _, -, q2, -, -⟩ | ⟨-, -, q2⟩
            · rw [q2] at hc; cases hc
            · rw [q2] at hc; cases hc
          · rw [if_neg hn] at hc; cases hc
        · exact hk (fun _ _ => rfl)
      | ub u => rw [hc] at h; cases h
      | diverges => rw [hc] at h; cases h
    cases hmake (by omega) (by omega) p1
    cases hmake (by omega) (by omega) p3
    exact ⟨st, s5, s7, e⟩
  | thrown ex => rw [hv] at e1; cases e1
  | ub u => rw [hv] at e1; cases e1
  | diverges => rw [hv] at e1; cases e1

end HL.SMem
