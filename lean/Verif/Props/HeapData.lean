import Verif.Proof.HeapData
import Verif.Proof.ArrayLemmas

/-
C109: the memory behind the arrays does not show.

A program that makes, moves, copies, resizes, releases and destroys arrays, reads and writes their elements, wraps arrays
around blocks of its own and reads and writes those, gets exactly the results it would get if every array that owns its
storage were a value and every other array a view of one of the caller's blocks (`Verif/HeapDataSpec.lean`).
-/

namespace HL

open HeapData

variable {α : Type}

/-! ### Checking that a program is proper -/

/-- `Val.Usable`, decided. -/
def Val.St.usableB (v : Val.St α) (i : Nat) : Bool :=
  match v.arrs[i]? with
  | some .gone => false
  | some _ => true
  | none => false

theorem Val.usable_of {v : Val.St α} {i : Nat} (h : v.usableB i = true) : Val.Usable v i := by
  unfold Val.St.usableB at h
  split at h
  · cases h
  · rename_i x hx he
    exact ⟨x, he, fun h' => hx h'⟩
  · cases h

/-- `Val.Allowed`, decided. -/
def Val.St.allowedB (v : Val.St α) : Mem.Op α → Bool
  | .new0 | .new _ | .destroy _ | .callerNew _ => true
  | .wrap _ k | .callerRead k _ | .callerWrite k _ _ | .callerDelete k => decide (k < v.blocks.length)
  | .move i | .resize i _ | .read i _ | .write i _ _ | .assign i _ => v.usableB i
  | .release i => v.usableB i && (match v.arrs[i]? with | some (.own a) => decide (a.storageSize ≠ 0) | _ => true)
  | .copy i j => v.usableB i && v.usableB j && decide (i ≠ j)

/-- `Val.Proper`, decided. -/
def Val.St.properB (v : Val.St α) : List (Mem.Op α) → Bool
  | [] => true
  | op :: ops => v.allowedB op && (match Val.step v op with | .ok (v', _) => Val.St.properB v' ops | _ => true)

theorem Val.allowed_of {v : Val.St α} {op : Mem.Op α} (h : v.allowedB op = true) : Val.Allowed v op := by
  cases op <;> simp only [Val.St.allowedB, Val.Allowed, Bool.and_eq_true, decide_eq_true_eq] at h ⊢
  case release i =>
    refine ⟨Val.usable_of h.1, fun a ha => ?_⟩
    have := h.2
    rw [ha] at this
    simpa using this
  case copy i j => exact ⟨Val.usable_of h.1.1, Val.usable_of h.1.2, h.2⟩
  all_goals first | exact h | exact Val.usable_of h

theorem Val.proper_of : ∀ {ops : List (Mem.Op α)} {v : Val.St α}, v.properB ops = true → Val.Proper v ops
  | [], _, _ => trivial
  | op :: ops, v, h => by
    simp only [Val.St.properB, Bool.and_eq_true] at h
    refine ⟨Val.allowed_of h.1, fun v' r hs => ?_⟩
    have := h.2
    rw [hs] at this
    exact Val.proper_of this

/-! ### The results -/

/-- The results of a program are those of the arrays as values. -/
theorem C109_values {ops : List (Mem.Op α)} (h : Val.Proper Val.init ops) (rs : List (Mem.Res α)) :
    Mem.outcome ops = .ok rs ↔ Val.outcome ops = .ok rs := by
  unfold Mem.outcome Val.outcome
  rcases sim_run ops rel_init h with ⟨u, u', h1, h2⟩ | ⟨c, v, rs', tag, h1, h2, -⟩
  · rw [h1, h2]; constructor <;> (intro h; cases h)
  · rw [h1, h2]; exact ⟨id, id⟩

/-- A program goes through undefined behaviour exactly when it asks for something that has no meaning for values: an element
out of range or never written, no dimensions or an empty one, a block that has been deleted.  Otherwise it has results. -/
theorem C109_undefined {ops : List (Mem.Op α)} (h : Val.Proper Val.init ops) :
    ((∃ u, Mem.outcome ops = .ub u) ↔ ∃ u, Val.outcome ops = .ub u) ∧
      ((∃ u, Mem.outcome ops = .ub u) ∨ ∃ rs, Mem.outcome ops = .ok rs) := by
  unfold Mem.outcome Val.outcome
  rcases sim_run ops rel_init h with ⟨u, u', h1, h2⟩ | ⟨c, v, rs', tag, h1, h2, -⟩
  · rw [h1, h2]; exact ⟨⟨fun _ => ⟨u', rfl⟩, fun _ => ⟨u, rfl⟩⟩, .inl ⟨u, rfl⟩⟩
  · rw [h1, h2]; exact ⟨by constructor <;> (rintro ⟨_, h⟩; cases h), .inr ⟨rs', rfl⟩⟩

/-- A program using all the operations on numbers. -/
def sampleOps : List (Mem.Op Int) :=
  [.new [2, 2], .assign 0 7, .new0, .copy 0 1, .write 1 [0, 1] 5, .read 0 [0, 1], .read 1 [0, 1],   -- a deep copy
   .callerNew 6, .wrap [2, 3] 0, .assign 2 1, .callerWrite 0 4 9, .read 2 [1, 1], .resize 2 [1],     -- a view
   .move 1, .destroy 1, .read 3 [0, 1], .release 3, .callerRead 1 1, .callerDelete 1, .destroy 3,
   .resize 0 [3], .read 0 [2], .copy 2 0, .read 0 [1, 1], .destroy 0, .destroy 2, .callerDelete 0]

example : Val.Proper Val.init sampleOps := Val.proper_of (by decide +kernel)

example : Mem.outcome sampleOps = .ok
    [.done, .done, .done, .done, .done, .value 7, .value 5, .done, .done, .done, .done, .value 9, .notOwned, .done, .done, .value 5,
     .done, .value 5, .done, .done, .done, .value 7, .done, .value 9, .done, .done, .done] := by decide +kernel

/-- Reading through a view after the caller has deleted the block is undefined. -/
example : Mem.outcome (α := Int) [.callerNew 1, .wrap [1] 0, .callerWrite 0 0 3, .callerDelete 0, .read 0 [0]] = .ub .useAfterFree := by
  decide +kernel

example : Val.Proper (α := Int) Val.init [.callerNew 1, .wrap [1] 0, .callerWrite 0 0 3, .callerDelete 0, .read 0 [0]] :=
  Val.proper_of (by decide +kernel)

/-! ### What that comes to -/

/-- The operations that are done to array `i`. -/
def Mem.Touches (i : Nat) : Mem.Op α → Prop
  | .move j | .resize j _ | .release j | .destroy j | .write j _ _ | .assign j _ | .copy _ j => j = i
  | _ => False

theorem val_frame {v v' : Val.St α} {op : Mem.Op α} {r : Mem.Res α} {i : Nat} {x : Val.Arr α} (hx : v.arrs[i]? = some x)
    (ht : ¬ Mem.Touches i op) (hs : Val.step v op = .ok (v', r)) : v'.arrs[i]? = some x := by
  have hlt := (List.getElem?_eq_some_iff.mp hx).1
  have upd : ∀ (j : Nat) (a : NDArray α) (y : Val.Arr α), j ≠ i → (Val.update v j a y).arrs[i]? = some x := by
    intro j a y hj
    cases y <;> simp [Val.update, hx, List.getElem?_set_ne hj]
  cases op with
  | new0 => cases hs; simp [List.getElem?_append_left hlt, hx]
  | new sizes =>
    obtain ⟨a, -, h⟩ := Out.bind_eq_ok.mp hs
    cases h; simp [List.getElem?_append_left hlt, hx]
  | wrap sizes k =>
    obtain ⟨a, -, h⟩ := Out.bind_eq_ok.mp hs
    cases h; simp [List.getElem?_append_left hlt, hx]
  | move j =>
    have hj : j ≠ i := ht
    simp only [Val.step] at hs
    split at hs
    · cases hs
      dsimp only
      rw [List.getElem?_append_left (by simpa using hlt), List.getElem?_set_ne hj]
      exact hx
    · cases hs; exact hx
  | resize j sizes =>
    have hj : j ≠ i := ht
    simp only [Val.step] at hs
    split at hs
    · obtain ⟨a, -, h⟩ := Out.bind_eq_ok.mp hs
      cases h; simp [List.getElem?_set_ne hj, hx]
    · cases hs; exact hx
    · cases hs; exact hx
  | release j =>
    have hj : j ≠ i := ht
    simp only [Val.step] at hs
    split at hs
    · cases hs; simp [List.getElem?_set_ne hj, hx]
    · cases hs; exact hx
  | destroy j =>
    have hj : j ≠ i := ht
    cases hs; simp [List.getElem?_set_ne hj, hx]
  | read j idx =>
    simp only [Val.step] at hs
    split at hs
    · obtain ⟨a, -, h⟩ := Out.bind_eq_ok.mp hs
      obtain ⟨y, -, h⟩ := Out.bind_eq_ok.mp h
      cases h; exact hx
    · cases hs; exact hx
  | write j idx y =>
    have hj : j ≠ i := ht
    simp only [Val.step] at hs
    split at hs
    · obtain ⟨a, -, h⟩ := Out.bind_eq_ok.mp hs
      obtain ⟨b, -, h⟩ := Out.bind_eq_ok.mp h
      cases h; exact upd _ _ _ hj
    · cases hs; exact hx
  | assign j y =>
    have hj : j ≠ i := ht
    simp only [Val.step] at hs
    split at hs
    · obtain ⟨a, -, h⟩ := Out.bind_eq_ok.mp hs
      obtain ⟨b, -, h⟩ := Out.bind_eq_ok.mp h
      cases h; exact upd _ _ _ hj
    · cases hs; exact hx
  | copy j k =>
    have hj : k ≠ i := ht
    simp only [Val.step] at hs
    split at hs
    · obtain ⟨a, -, h⟩ := Out.bind_eq_ok.mp hs
      obtain ⟨b, -, h⟩ := Out.bind_eq_ok.mp h
      cases h; simp [List.getElem?_set_ne hj, hx]
    · cases hs; exact hx
    · cases hs; exact hx
  | callerNew n => cases hs; exact hx
  | callerRead k o =>
    simp only [Val.step] at hs
    split at hs
    · split at hs
      · cases hs; exact hx
      · cases hs
      · cases hs
    · cases hs
    · cases hs; exact hx
  | callerWrite k o y =>
    simp only [Val.step] at hs
    split at hs
    · split at hs
      · cases hs; exact hx
      · cases hs
    · cases hs
    · cases hs; exact hx
  | callerDelete k =>
    simp only [Val.step] at hs
    split at hs
    · cases hs; exact hx
    · cases hs
    · cases hs; exact hx

theorem proper_append : ∀ {ops ops' : List (Mem.Op α)} {v : Val.St α}, Val.Proper v (ops ++ ops') →
    Val.Proper v ops ∧ ∀ v' rs, Val.run v ops = .ok (v', rs) → Val.Proper v' ops'
  | [], _, _, h => ⟨trivial, fun v' rs hr => by cases hr; exact h⟩
  | op :: ops, ops', v, h => by
    obtain ⟨ha, h⟩ := h
    refine ⟨⟨ha, fun v' r hs => (proper_append (h v' r hs)).1⟩, fun v' rs hr => ?_⟩
    obtain ⟨⟨v1, r1⟩, h1, hr⟩ := Out.bind_eq_ok.mp hr
    obtain ⟨⟨v2, r2⟩, h2, hr⟩ := Out.bind_eq_ok.mp hr
    cases hr
    exact (proper_append (h v1 r1 h1)).2 _ r2 h2

/-- The state a proper program is in, from both sides. -/
theorem rel_of_run {ops : List (Mem.Op α)} (h : Val.Proper Val.init ops) {s : Mem.St α} {rs : List (Mem.Res α)}
    (hr : Mem.run Mem.init ops = .ok (s, rs)) : ∃ v tag, Val.run Val.init ops = .ok (v, rs) ∧ Rel tag s v := by
  rcases sim_run ops rel_init h with ⟨u, u', h1, h2⟩ | ⟨c, v, rs', tag, h1, h2, h3⟩
  · rw [hr] at h1; cases h1
  · rw [hr] at h1; cases h1
    exact ⟨v, tag, h2, h3⟩

theorem sim_result {a : Out (Mem.St α × Mem.Res α)} {b : Out (Val.St α × Mem.Res α)} (h : Sim a b) {c : Mem.St α} {r : Mem.Res α}
    (ha : a = .ok (c, r)) : ∃ v tag, b = .ok (v, r) ∧ Rel tag c v := by
  rcases h with ⟨u, u', h1, h2⟩ | ⟨c, v, rs', tag, h1, h2, h3⟩
  · rw [ha] at h1; cases h1
  · rw [ha] at h1; cases h1
    exact ⟨v, tag, h2, h3⟩

/-- Reading changes nothing. -/
theorem read_state {s s' : Mem.St α} {i : Nat} {idx : List Int} {r : Mem.Res α} (h : Mem.step s (.read i idx) = .ok (s', r)) :
    s' = s := by
  simp only [Mem.step] at h
  split at h
  · split at h
    · obtain ⟨o, -, h⟩ := Out.bind_eq_ok.mp h
      obtain ⟨x, -, h⟩ := Out.bind_eq_ok.mp h
      cases h; rfl
    · cases h; rfl
  · cases h; rfl

/-- The elements of an array that owns its storage stay what they are whatever is done to other arrays or by the caller with
its own pointers. -/
theorem C109_frame {ops : List (Mem.Op α)} {s s' : Mem.St α} {rs : List (Mem.Res α)} {i : Nat} {o : Heap.Obj} {op : Mem.Op α}
    {idx : List Int} {r : Mem.Res α} {y : α} (hp : Val.Proper Val.init (ops ++ [op]))
    (hr : Mem.run Mem.init ops = .ok (s, rs)) (ho : s.objs[i]? = some o) (hown : o.owned = true)
    (ht : ¬ Mem.Touches i op) (hs : Mem.step s op = .ok (s', r)) (hy : Mem.step s (.read i idx) = .ok (s, .value y)) :
    Mem.step s' (.read i idx) = .ok (s', .value y) := by
  obtain ⟨hp1, hp2⟩ := proper_append hp
  obtain ⟨v, tag, hv, R⟩ := rel_of_run hp1 hr
  obtain ⟨hall, -⟩ := hp2 v rs hv
  obtain ⟨v', tag', hv', R'⟩ := sim_result (sim_step R hall) hs
  obtain ⟨x, hx⟩ := lookup R.len.symm ho
  have H := R.arr i o x ho hx
  have hal : o.alive = true := by
    by_contra hn
    simp only [Mem.step, ho, hn, if_false] at hy
    cases hy
  have hx' := val_frame hx ht hv'
  cases x with
  | gone => rw [H hal] at hown; cases hown
  | view => rw [H.2.1] at hown; cases hown
  | own a =>
    have hu : Val.Usable v i := ⟨_, hx, by simp⟩
    have hu' : Val.Usable v' i := ⟨_, hx', by simp⟩
    obtain ⟨w, -, hw, -⟩ := sim_result (sim_read R idx hu) hy
    have hget : a.get idx = .ok y := by
      simp only [Val.step, hx, Val.contents, Out.ok_bind] at hw
      obtain ⟨z, hz, hw⟩ := Out.bind_eq_ok.mp hw
      cases hw; exact hz
    have hread : Val.step v' (.read i idx) = .ok (v', .value y) := by
      simp only [Val.step, hx', Val.contents, Out.ok_bind, hget]
      rfl
    rcases sim_read R' idx hu' with ⟨u, u', h1, h2⟩ | ⟨c, w, r', t, h1, h2, -⟩
    · rw [hread] at h2; cases h2
    · rw [hread] at h2; cases h2
      rw [h1, read_state h1]

example : ∃ s rs s' o, Val.Proper Val.init ([.new [2], .assign 0 7, .new [2]] ++ [.copy 0 1] : List (Mem.Op Int)) ∧
    Mem.run (α := Int) Mem.init [.new [2], .assign 0 7, .new [2]] = .ok (s, rs) ∧ s.objs[0]? = some o ∧ o.owned = true ∧
    ¬ Mem.Touches 0 (.copy 0 1 : Mem.Op Int) ∧ Mem.step s (.copy 0 1) = .ok (s', .done) ∧
    Mem.step s (.read 0 [1]) = .ok (s, .value 7) :=
  ⟨⟨[⟨[some 7, some 7], true⟩, ⟨[none, none], true⟩], [⟨1, [2], [1], 2, some 0, true, true⟩, ⟨1, [2], [1], 2, some 1, true, true⟩], []⟩,
   [.done, .done, .done],
   ⟨[⟨[some 7, some 7], true⟩, ⟨[some 7, some 7], true⟩], [⟨1, [2], [1], 2, some 0, true, true⟩, ⟨1, [2], [1], 2, some 1, true, true⟩], []⟩,
   ⟨1, [2], [1], 2, some 0, true, true⟩,
   Val.proper_of (by decide +kernel), by decide +kernel, rfl, rfl, by simp [Mem.Touches], by decide +kernel, by decide +kernel⟩

/-! ### Shapes -/

/-- The shape of an array that was made: row-major. -/
def Made (sizes offsets : List Nat) (storage : Nat) : Prop :=
  offsets = offs sizes ∧ storage = prodSizes sizes

def FineArr : Val.Arr α → Prop
  | .gone => True
  | .own a => Made a.sizes a.offsets a.storageSize ∨ a.sizes = [] ∧ a.storageSize = 0
  | .view sz off st _ => Made sz off st

theorem computeOffsets_ok {s : List Nat} {o : List Nat} (h : NDArray.computeOffsets (prodSizes s) s = .ok o) : o = offs s := by
  have hpos : ∀ n ∈ s, 0 < n := by
    rcases computeOffsets_cases s (prodSizes s) with ⟨_, -, -, hz⟩ | h'
    · clear h
      induction s with
      | nil => simp
      | cons n s ih =>
        simp only [prodSizes, ne_eq, Nat.mul_eq_zero, not_or] at hz
        intro m hm
        rcases List.mem_cons.mp hm with rfl | hm
        · omega
        · exact ih hz.2 m hm
    · rw [h] at h'; cases h'
  rw [computeOffsets_eq hpos] at h
  cases h; rfl

theorem made_resize {a b : NDArray α} {sizes : List Nat} (h : a.resize sizes = .ok b) :
    Made b.sizes b.offsets b.storageSize ∧ b.sizes = sizes := by
  unfold NDArray.resize at h
  split at h
  · cases h
  · obtain ⟨o, h1, h2⟩ := Out.bind_eq_ok.mp h
    cases h2
    exact ⟨⟨computeOffsets_ok h1, rfl⟩, rfl⟩

theorem made_wrap {b : NDArray α} {sizes : List Nat} {block : List (Option α)} (h : NDArray.wrap sizes block = .ok b) :
    Made b.sizes b.offsets b.storageSize ∧ b.sizes = sizes := by
  unfold NDArray.wrap at h
  split at h
  · cases h
  · obtain ⟨o, h1, h2⟩ := Out.bind_eq_ok.mp h
    cases h2
    exact ⟨⟨computeOffsets_ok h1, rfl⟩, rfl⟩

theorem set_shape {a b : NDArray α} {idx : List Int} {y : α} (h : a.set idx y = .ok b) :
    b.sizes = a.sizes ∧ b.offsets = a.offsets ∧ b.storageSize = a.storageSize := by
  unfold NDArray.set at h
  obtain ⟨o, -, h⟩ := Out.bind_eq_ok.mp h
  split at h
  · cases h; exact ⟨rfl, rfl, rfl⟩
  · cases h

theorem assign_shape {a b : NDArray α} {y : α} (h : a.assign y = .ok b) :
    b.sizes = a.sizes ∧ b.offsets = a.offsets ∧ b.storageSize = a.storageSize := by
  unfold NDArray.assign at h
  split at h
  · cases h; exact ⟨rfl, rfl, rfl⟩
  · cases h

theorem copy_shape {a b c : NDArray α} (h : NDArray.copy a b = .ok c) : Made c.sizes c.offsets c.storageSize ∧ c.sizes = a.sizes := by
  unfold NDArray.copy at h
  obtain ⟨d, h1, h⟩ := Out.bind_eq_ok.mp h
  obtain ⟨xs, -, h⟩ := Out.bind_eq_ok.mp h
  unfold NDArray.copyIn at h
  split at h
  · cases h
    have := made_resize h1
    exact this
  · cases h

theorem mem_set_fine {l : List (Val.Arr α)} (hl : ∀ x ∈ l, FineArr x) {i : Nat} {y : Val.Arr α} (hy : FineArr y) :
    ∀ x ∈ l.set i y, FineArr x := by
  intro x hx
  rcases List.mem_or_eq_of_mem_set hx with h | h
  · exact hl x h
  · exact h ▸ hy

theorem mem_append_fine {l : List (Val.Arr α)} (hl : ∀ x ∈ l, FineArr x) {y : Val.Arr α} (hy : FineArr y) :
    ∀ x ∈ l ++ [y], FineArr x := by
  intro x hx
  rcases List.mem_append.mp hx with h | h
  · exact hl x h
  · rw [List.mem_singleton.mp h]; exact hy

theorem fine_step {v v' : Val.St α} {op : Mem.Op α} {r : Mem.Res α} (hv : ∀ x ∈ v.arrs, FineArr x)
    (ha : Val.Allowed v op) (hs : Val.step v op = .ok (v', r)) : ∀ x ∈ v'.arrs, FineArr x := by
  have upd : ∀ (j : Nat) (a b : NDArray α) (y : Val.Arr α), y ∈ v.arrs → Val.contents v y = .ok a →
      b.sizes = a.sizes ∧ b.offsets = a.offsets ∧ b.storageSize = a.storageSize → ∀ x ∈ (Val.update v j b y).arrs, FineArr x := by
    intro j a b y hy hc hb
    cases y with
    | gone => exact hv
    | own a' =>
      cases hc
      refine mem_set_fine hv ?_
      have := hv _ hy
      simp only [FineArr, hb.1, hb.2.1, hb.2.2] at this ⊢
      exact this
    | view => exact hv
  cases op with
  | new0 => cases hs; exact mem_append_fine hv (.inr ⟨rfl, rfl⟩)
  | new sizes =>
    obtain ⟨a, h1, h⟩ := Out.bind_eq_ok.mp hs
    cases h; exact mem_append_fine hv (.inl (made_resize h1).1)
  | wrap sizes k =>
    obtain ⟨a, h1, h⟩ := Out.bind_eq_ok.mp hs
    cases h; exact mem_append_fine hv (made_wrap h1).1
  | move j =>
    simp only [Val.step] at hs
    split at hs
    · rename_i x hx
      cases hs; exact mem_append_fine (mem_set_fine hv (y := .gone) trivial) (hv x (List.mem_of_getElem? hx))
    · cases hs; exact hv
  | resize j sizes =>
    simp only [Val.step] at hs
    split at hs
    · obtain ⟨a, h1, h⟩ := Out.bind_eq_ok.mp hs
      cases h; exact mem_set_fine hv (.inl (made_resize h1).1)
    · cases hs; exact hv
    · cases hs; exact hv
  | release j =>
    simp only [Val.step] at hs
    split at hs
    · rename_i a hx
      cases hs
      refine mem_set_fine hv ?_
      exact (hv _ (List.mem_of_getElem? hx)).resolve_right (fun h => ha.2 a hx h.2)
    · cases hs; exact hv
  | destroy j => cases hs; exact mem_set_fine hv (y := .gone) trivial
  | read j idx =>
    simp only [Val.step] at hs
    split at hs
    · obtain ⟨a, -, h⟩ := Out.bind_eq_ok.mp hs
      obtain ⟨y, -, h⟩ := Out.bind_eq_ok.mp h
      cases h; exact hv
    · cases hs; exact hv
  | write j idx y =>
    simp only [Val.step] at hs
    split at hs
    · rename_i x hx
      obtain ⟨a, h1, h⟩ := Out.bind_eq_ok.mp hs
      obtain ⟨b, h2, h⟩ := Out.bind_eq_ok.mp h
      cases h; exact upd _ _ _ _ (List.mem_of_getElem? hx) h1 (set_shape h2)
    · cases hs; exact hv
  | assign j y =>
    simp only [Val.step] at hs
    split at hs
    · rename_i x hx
      obtain ⟨a, h1, h⟩ := Out.bind_eq_ok.mp hs
      obtain ⟨b, h2, h⟩ := Out.bind_eq_ok.mp h
      cases h; exact upd _ _ _ _ (List.mem_of_getElem? hx) h1 (assign_shape h2)
    · cases hs; exact hv
  | copy j k =>
    simp only [Val.step] at hs
    split at hs
    · obtain ⟨a, -, h⟩ := Out.bind_eq_ok.mp hs
      obtain ⟨b, h2, h⟩ := Out.bind_eq_ok.mp h
      cases h; exact mem_set_fine hv (.inl (copy_shape h2).1)
    · cases hs; exact hv
    · cases hs; exact hv
  | callerNew n => cases hs; exact hv
  | callerRead k o =>
    simp only [Val.step] at hs
    split at hs
    · split at hs
      · cases hs; exact hv
      · cases hs
      · cases hs
    · cases hs
    · cases hs; exact hv
  | callerWrite k o y =>
    simp only [Val.step] at hs
    split at hs
    · split at hs
      · cases hs; exact hv
      · cases hs
    · cases hs
    · cases hs; exact hv
  | callerDelete k =>
    simp only [Val.step] at hs
    split at hs
    · cases hs; exact hv
    · cases hs
    · cases hs; exact hv

theorem fine_run : ∀ {ops : List (Mem.Op α)} {v v' : Val.St α} {rs : List (Mem.Res α)}, (∀ x ∈ v.arrs, FineArr x) →
    Val.Proper v ops → Val.run v ops = .ok (v', rs) → ∀ x ∈ v'.arrs, FineArr x
  | [], _, _, _, hv, _, hr => by cases hr; exact hv
  | op :: ops, v, v', rs, hv, hp, hr => by
    obtain ⟨⟨v1, r1⟩, h1, hr⟩ := Out.bind_eq_ok.mp hr
    obtain ⟨⟨v2, r2⟩, h2, hr⟩ := Out.bind_eq_ok.mp hr
    cases hr
    exact fine_run (fine_step hv hp.1 h1) (hp.2 _ _ h1) h2

theorem mapM_some : ∀ {l : List (Option α)} {xs : List α}, (l.mapM (fun x : Option α => match x with
      | some x => (Out.ok x : Out α)
      | none => .ub .uninit) : Out (List α)) = .ok xs → l = xs.map some
  | [], xs, h => by cases h; rfl
  | x :: l, xs, h => by
    rw [List.mapM_cons] at h
    obtain ⟨y, h0, h⟩ := Out.bind_eq_ok.mp h
    obtain ⟨ys, h1, h⟩ := Out.bind_eq_ok.mp h
    cases h
    cases x with
    | none => cases h0
    | some x => cases h0; rw [mapM_some h1]; rfl

/-- A copy has the elements of the original. -/
theorem copy_get {a b c : NDArray α} (hm : Made a.sizes a.offsets a.storageSize) (h : NDArray.copy a b = .ok c) {idx : List Int}
    (hi : InRange a.sizes idx) : ∃ y, a.get idx = .ok y ∧ c.get idx = .ok y := by
  obtain ⟨hc, hcs⟩ := copy_shape h
  unfold NDArray.copy at h
  obtain ⟨d, h1, h⟩ := Out.bind_eq_ok.mp h
  obtain ⟨xs, h2, h⟩ := Out.bind_eq_ok.mp h
  have hlen : xs.length = a.storageSize := readAll_length h2
  obtain ⟨k, hk1, hk2, -⟩ := getElem_rank hi
  rw [← hm.2, ← hlen] at hk2
  unfold NDArray.readAll at h2
  split at h2
  · rename_i hle
    have htake := mapM_some h2
    unfold NDArray.copyIn at h
    split at h
    · cases h
      have hoff : NDArray.offset a.offsets idx = .ok (k : Int) := by
        rw [hm.1, offset_eq_rank (List.Forall₂.length_eq hi).symm, hk1]
      have hoff' : NDArray.offset d.offsets idx = .ok (k : Int) := by
        have := hc.1
        dsimp only at this hcs
        rw [this, hcs, offset_eq_rank (List.Forall₂.length_eq hi).symm, hk1]
      refine ⟨xs[k], ?_, ?_⟩
      · have hka : k < a.data.length := by omega
        have hval : a.data[k]? = some (some xs[k]) := by
          have : (a.data.take a.storageSize)[k]? = some (some xs[k]) := by rw [htake]; simp [hk2]
          rwa [List.getElem?_take_of_lt (by omega)] at this
        simp only [NDArray.get, hoff, Out.ok_bind]
        rw [if_pos (by omega)]
        simp [List.getD_eq_getElem?_getD, hval]
      · simp only [NDArray.get, hoff', Out.ok_bind]
        rw [if_pos (by simp only [List.length_append, List.length_map, List.length_drop]; omega)]
        simp [List.getD_eq_getElem?_getD, List.getElem?_append_left, hk2]
    · cases h
  · cases h2

/-- A copy is deep and complete: when `copy(array i, array j)` returns, both arrays give the elements array `i` had, for every
index in range.  By `C109_frame` neither can change the other from then on. -/
theorem C109_copy {ops : List (Mem.Op α)} {s s' : Mem.St α} {rs : List (Mem.Res α)} {i j : Nat} {o : Heap.Obj} {idx : List Int}
    (hp : Val.Proper Val.init (ops ++ [.copy i j])) (hr : Mem.run Mem.init ops = .ok (s, rs)) (ho : s.objs[i]? = some o)
    (hi : InRange o.sizes idx) (hs : Mem.step s (.copy i j) = .ok (s', .done)) :
    ∃ y, Mem.step s (.read i idx) = .ok (s, .value y) ∧ Mem.step s' (.read i idx) = .ok (s', .value y) ∧
      Mem.step s' (.read j idx) = .ok (s', .value y) := by
  obtain ⟨hp1, hp2⟩ := proper_append hp
  obtain ⟨v, tag, hv, R⟩ := rel_of_run hp1 hr
  obtain ⟨hall, -⟩ := hp2 v rs hv
  obtain ⟨v', tag', hv', R'⟩ := sim_result (sim_step R hall) hs
  obtain ⟨hu, hw, hij⟩ := hall
  obtain ⟨o', x, ho', hx, hg, hal⟩ := usable R hu
  rw [ho] at ho'; cases ho'
  obtain ⟨p, y, -, hy, hg', -⟩ := usable R hw
  have hfine := fine_run (v := Val.init) (by simp [Val.init]) hp1 hv
  have hread : ∀ {c : Mem.St α} {w : Val.St α} {t : Nat → Tag} {k : Nat} {z : α}, Rel t c w → Val.Usable w k →
      Val.step w (.read k idx) = .ok (w, .value z) → Mem.step c (.read k idx) = .ok (c, .value z) := by
    intro c w t k z R hu h
    rcases sim_read R idx hu with ⟨u, u', h1, h2⟩ | ⟨c, w, r', t, h1, h2, -⟩
    · rw [h] at h2; cases h2
    · rw [h] at h2; cases h2
      rw [h1, read_state h1]
  cases y with
  | gone => exact absurd rfl hg'
  | view sz off st k =>
    simp only [Val.step, hx, hy] at hv'
    cases hv'
  | own b =>
    have hv'' := hv'
    simp only [Val.step, hx, hy] at hv''
    obtain ⟨a, h1, h⟩ := Out.bind_eq_ok.mp hv''
    obtain ⟨b', h2, h⟩ := Out.bind_eq_ok.mp h
    cases h
    have hmade : Made a.sizes a.offsets a.storageSize ∧ a.sizes = o.sizes := by
      have hf := hfine x (List.mem_of_getElem? hx)
      have H := R.arr i o x ho hx
      cases x with
      | gone => exact absurd rfl hg
      | own a' =>
        cases h1
        refine ⟨hf.resolve_right ?_, H.1.sizes.symm⟩
        intro hz
        -- an array without storage cannot have been copied
        simp only [NDArray.copy, hz.1, NDArray.resize] at h2
        cases h2
      | view sz off st k =>
        simp only [Val.contents] at h1
        split at h1
        · cases h1
          exact ⟨hf, H.1.sizes.symm⟩
        · cases h1
    obtain ⟨z, hz1, hz2⟩ := copy_get hmade.1 h2 (hmade.2 ▸ hi)
    have hxi' : (v.arrs.set j (.own b'))[i]? = some x := by rw [List.getElem?_set_ne (Ne.symm hij)]; exact hx
    have hxj' : (v.arrs.set j (.own b'))[j]? = some (.own b') := List.getElem?_set_self (List.getElem?_eq_some_iff.mp hy).1
    refine ⟨z, hread R hu ?_, hread R' ⟨x, hxi', hg⟩ ?_, hread R' ⟨_, hxj', by simp⟩ ?_⟩
    · simp only [Val.step, hx, h1, Out.ok_bind, hz1]; rfl
    · have : Val.contents ⟨v.arrs.set j (.own b'), v.blocks⟩ x = .ok a := by rw [← h1]; cases x <;> rfl
      simp only [Val.step, hxi', this, Out.ok_bind, hz1]; rfl
    · simp only [Val.step, hxj', Val.contents, Out.ok_bind, hz2]; rfl

example : ∃ s rs s' o, Val.Proper Val.init ([.callerNew 2, .wrap [2] 0, .assign 0 4, .new [5]] ++ [.copy 0 1] : List (Mem.Op Int)) ∧
    Mem.run (α := Int) Mem.init [.callerNew 2, .wrap [2] 0, .assign 0 4, .new [5]] = .ok (s, rs) ∧ s.objs[0]? = some o ∧
    InRange o.sizes [1] ∧ Mem.step s (.copy 0 1) = .ok (s', .done) :=
  ⟨⟨[⟨[some 4, some 4], true⟩, ⟨[none, none, none, none, none], true⟩],
     [⟨1, [2], [1], 2, some 0, false, true⟩, ⟨1, [5], [1], 5, some 1, true, true⟩], [some 0]⟩,
   [.done, .done, .done, .done],
   ⟨[⟨[some 4, some 4], true⟩, ⟨[some 4, some 4, none, none, none], true⟩],
     [⟨1, [2], [1], 2, some 0, false, true⟩, ⟨1, [2], [1], 2, some 1, true, true⟩], [some 0]⟩,
   ⟨1, [2], [1], 2, some 0, false, true⟩,
   Val.proper_of (by decide +kernel), by decide +kernel, rfl, by decide, by decide +kernel⟩

/-- Moving an array moves its elements: the new array gives for every index what the old one would have given. -/
theorem C109_move {s s' : Mem.St α} {i : Nat} {o : Heap.Obj} (ho : s.objs[i]? = some o) (hal : o.alive = true)
    (hs : Mem.step s (.move i) = .ok (s', .done)) (idx : List Int) :
    Prod.snd <$> Mem.step s' (.read s.objs.length idx) = Prod.snd <$> Mem.step s (.read i idx) := by
  simp only [Mem.step, ho, hal, if_true] at hs
  cases hs
  have h1 : (s.objs.set i (Heap.moveFrom o) ++ [Heap.moveTo o])[s.objs.length]? = some o := by
    rw [List.getElem?_append_right (by simp)]; simp [Heap.moveTo]
  simp only [Mem.step, ho, h1, hal, if_true]
  cases h2 : Mem.offset o idx <;> simp only [Out.ok_bind, Out.thrown_bind, Out.ub_bind, Out.diverges_bind]
  · rename_i p
    cases Mem.load s.heap o.data p <;> rfl

theorem load_store {h h' : List (Mem.Block α)} {p : Option Nat} {n : Int} {x : α} (hs : Mem.store h p n x = .ok h') :
    Mem.load h' p n = .ok x := by
  unfold Mem.store at hs
  obtain ⟨⟨k, cells⟩, h1, hs⟩ := Out.bind_eq_ok.mp hs
  dsimp only at hs
  split at hs
  · rename_i hn
    cases hs
    cases p with
    | none => cases h1
    | some q =>
      simp only [Mem.deref] at h1
      split at h1
      · cases h1
      · rename_i b hb
        split at h1
        · cases h1
          have hlt := (List.getElem?_eq_some_iff.mp hb).1
          have h3 : Mem.deref (h.set k ⟨b.cells.set n.toNat (some x), true⟩) (some k) = .ok (k, b.cells.set n.toNat (some x)) :=
            deref_live (by rw [List.getElem?_set_self hlt])
          simp only [Mem.load, h3, Out.ok_bind, List.length_set]
          rw [if_pos hn]
          have : n.toNat < b.cells.length := by omega
          simp [List.getD_eq_getElem?_getD, this]
        · cases h1
  · cases hs

/-- An array wrapped round one of the caller's blocks is that block: what is written through the array at the `p`-th index (in
row-major order) is what the caller finds at position `p`, and the other way round. -/
theorem C109_view {s s1 : Mem.St α} {sizes : List Nat} {k p : Nat} {idx : List Int} {x : α} (hk : k < s.ptrs.length)
    (hw : Mem.step s (.wrap sizes k) = .ok (s1, .done)) (hi : (allIdx sizes)[p]? = some idx) :
    (∀ s2, Mem.step s1 (.write s.objs.length idx x) = .ok (s2, .done) → Mem.step s2 (.callerRead k p) = .ok (s2, .value x)) ∧
      ∀ s2, Mem.step s1 (.callerWrite k p x) = .ok (s2, .done) → Mem.step s2 (.read s.objs.length idx) = .ok (s2, .value x) := by
  have hin : InRange sizes idx := mem_allIdx.mp (List.mem_of_getElem? hi)
  have hrank := rank_of_getElem hi
  have hp : s.ptrs[k]? = some s.ptrs[k] := by simp [hk]
  simp only [Mem.step, hp] at hw
  obtain ⟨a, h1, hw⟩ := Out.bind_eq_ok.mp hw
  cases hw
  have ha : a.alive = true ∧ a.data = s.ptrs[k] ∧ Mem.offset a idx = .ok (p : Int) := by
    unfold Mem.wrapObj at h1
    split at h1
    · cases h1
    · obtain ⟨off, h2, h3⟩ := Out.bind_eq_ok.mp h1
      cases h3
      refine ⟨rfl, rfl, ?_⟩
      have hoff := computeOffsets_ok h2
      simp only [Mem.offset, hoff]
      have hl : (offs sizes).length = sizes.length := by simp [offs]
      rw [if_neg (by rw [hl]; omega), ← hl, List.take_length, offset_eq_rank (List.Forall₂.length_eq hin).symm, hrank]
  obtain ⟨ha1, ha2, ha3⟩ := ha
  have hobj : (s.objs ++ [a])[s.objs.length]? = some a := by simp
  constructor
  · intro s2 hs2
    simp only [Mem.step, hobj, ha1, if_true, ha3, Out.ok_bind, ha2] at hs2
    obtain ⟨h', h2, hs2⟩ := Out.bind_eq_ok.mp hs2
    cases hs2
    simp only [Mem.step, hp, load_store h2, Out.ok_bind]
    rfl
  · intro s2 hs2
    simp only [Mem.step, hp] at hs2
    obtain ⟨h', h2, hs2⟩ := Out.bind_eq_ok.mp hs2
    cases hs2
    simp only [Mem.step, hobj, ha1, if_true, ha3, Out.ok_bind, ha2, load_store h2]
    rfl

example : ∃ s s1 s2 : Mem.St Int, 0 < s.ptrs.length ∧ Mem.step s (.wrap [2, 2] 0) = .ok (s1, .done) ∧
    (allIdx [2, 2])[2]? = some [1, 0] ∧ Mem.step s1 (.write s.objs.length [1, 0] 8) = .ok (s2, .done) :=
  ⟨⟨[⟨[some 1, some 2, some 3, some 4], true⟩], [], [some 0]⟩,
   ⟨[⟨[some 1, some 2, some 3, some 4], true⟩], [⟨2, [2, 2], [2, 1], 4, some 0, false, true⟩], [some 0]⟩,
   ⟨[⟨[some 1, some 2, some 8, some 4], true⟩], [⟨2, [2, 2], [2, 1], 4, some 0, false, true⟩], [some 0]⟩,
   by decide, by decide +kernel, by decide +kernel, by decide +kernel⟩

end HL
