import Verif.Proof.HeapLemmas

/-!
C60: array memory is freed exactly once.  The operations are those of `Model/Heap.lean`, the vocabulary (`Owns`, `Live`, what
the caller may do) is in `HeapSpec.lean`.
-/

namespace HL.Heap

variable {s s' : St}

/-- **C60**: every program that keeps to what the caller may do runs without undefined behaviour: no block is freed twice, no
element is reached outside its allocation or after it has been freed.  At the end, as at every point on the way, every block
has at most one owner and owned blocks are allocated. -/
theorem C60_safe {ops : List Op} (h : AllowedRun init ops) :
    ∃ s, run init ops = .ok s ∧ (∀ i j p, Owns s i p → Owns s j p → i = j) ∧ ∀ i p, Owns s i p → Live s p := by
  obtain ⟨s, h1, h2⟩ := run_inv inv_init h
  exact ⟨s, h1, h2.unique, fun _ _ => h2.owns_live⟩

/-- **C60**: an operation on arrays frees a block only if it is the destruction or resizing of the array that owns it.  In
particular borrowed and released blocks are never freed by an array.  (In any state, allowed or not.) -/
theorem C60_frees_only_own {op : Op} {e : End} (hs : step s op = .ok (s', e)) {p : Nat} (hp : Live s p) (hp' : ¬ Live s' p) :
    op = .callerDelete p ∨ ∃ i, Owns s i p ∧ (op = .destroy i ∨ ∃ sizes ok, op = .resize i sizes ok) := by
  obtain ⟨b, hb, hl⟩ := hp
  obtain ⟨-, h2, -⟩ := step_effect hs
  rcases h2 p (List.getElem?_eq_some_iff.mp hb).1 with h3 | h3
  · exact absurd ⟨b, by rw [h3]; exact hb, hl⟩ hp'
  · exact h3

/-- **C60**: a block that no array owns, because the caller allocated it or because it was released, stays without an owner
and stays allocated until the caller frees it, whatever is done to whatever arrays. -/
theorem C60_unowned_stays {ops : List Op} {p : Nat} (hp : Live s p) (ho : ∀ i, ¬ Owns s i p) (hd : Op.callerDelete p ∉ ops)
    (hr : run s ops = .ok s') : Live s' p ∧ ∀ i, ¬ Owns s' i p := by
  induction ops generalizing s with
  | nil => cases hr; exact ⟨hp, ho⟩
  | cons op ops ih =>
    obtain ⟨⟨s1, e⟩, hs, hr⟩ := Out.bind_eq_ok.mp hr
    have hlive : Live s1 p := by
      by_contra hn
      rcases C60_frees_only_own hs hp hn with h1 | ⟨i, h1, -⟩
      · exact hd (by simp [h1])
      · exact ho i h1
    refine ih hlive (fun i hi => ?_) (fun hm => hd (by simp [hm])) hr
    obtain ⟨-, -, h3⟩ := step_effect hs
    rcases h3 i p hi with ⟨j, hj⟩ | hle
    · exact ho j hj
    · obtain ⟨b, hb, -⟩ := hp
      exact absurd (List.getElem?_eq_some_iff.mp hb).1 (by omega)

/-- **C60**: `release` leaves the block without an owner, and allocated. -/
theorem C60_release {ops : List Op} (h : AllowedRun init ops) (hr : run init ops = .ok s) {i p : Nat} (ho : Owns s i p) :
    ∃ s', step s (.release i) = .ok (s', .done) ∧ Live s' p ∧ ∀ j, ¬ Owns s' j p := by
  obtain ⟨s1, h1, h2⟩ := run_inv inv_init h
  rw [hr] at h1; cases h1
  obtain ⟨b, hb, hbl⟩ := h2.owns_live ho
  obtain ⟨a, hi, hl, hw, hd⟩ := id ho
  refine ⟨⟨s.heap, s.objs.set i { a with owned := false }⟩, by simp only [step, hi, hl, if_true], ⟨b, hb, hbl⟩, fun j hj => ?_⟩
  rcases (owns_set hi).mp hj with ⟨-, -, h3, -⟩ | ⟨hji, hj⟩
  · simp at h3
  · exact hji (h2.unique j i p hj ho)

/-- **C60**: destroying the owner frees the block. -/
theorem C60_destroy {ops : List Op} (h : AllowedRun init ops) (hr : run init ops = .ok s) {i p : Nat} (ho : Owns s i p) :
    ∃ s', step s (.destroy i) = .ok (s', .done) ∧ ¬ Live s' p := by
  obtain ⟨s1, h1, h2⟩ := run_inv inv_init h
  rw [hr] at h1; cases h1
  obtain ⟨b, hb, hbl⟩ := h2.owns_live ho
  obtain ⟨a, hi, hl, hw, hd⟩ := ho
  refine ⟨_, by simp only [step, hi, hl, if_true, destroy, hw, deallocate, hd, hb, hbl, Out.ok_bind, Out.pure_eq]; rfl, ?_⟩
  rintro ⟨c, hc, hcl⟩
  simp [(List.getElem?_eq_some_iff.mp hb).1] at hc
  rw [← hc] at hcl
  simp at hcl

theorem leak_run {ops : List Op} (h : Inv s) (ha : AllowedRun s ops) (hr : run s ops = .ok s') {C : List Nat}
    (hC : ∀ p, Live s p → (∃ i, Owns s i p) ∨ p ∈ C) {p : Nat} (hp : Live s' p) : (∃ i, Owns s' i p) ∨ p ∈ C ++ callers s ops := by
  induction ops generalizing s C with
  | nil => cases hr; simpa [callers] using hC p hp
  | cons op ops ih =>
    obtain ⟨⟨s1, e⟩, hs, hr⟩ := Out.bind_eq_ok.mp hr
    obtain ⟨s2, e2, h3, h4⟩ := step_inv h ha.1
    rw [hs] at h3; cases h3
    have := ih h4 (ha.2 s1 e hs) hr (C := C ++ stepCallers s op) (fun q hq => by
      rcases step_leak h hs ha.1 hq with h5 | h5 | ⟨h5, h6⟩
      · exact .inl h5
      · exact .inr (by simp [h5])
      · rcases hC q h5 with ⟨i, hi⟩ | h7
        · exact absurd hi (h6 i)
        · exact .inr (by simp [h7]))
    rw [callers_cons hs, ← List.append_assoc]
    exact this

/-- **C60**, no leaks: once all arrays have been destroyed, the only blocks still allocated are blocks the caller allocated
itself or took over by `release`. -/
theorem C60_no_leak {ops : List Op} (h : AllowedRun init ops) (hr : run init ops = .ok s)
    (hall : ∀ a ∈ s.objs, a.alive = false) {p : Nat} (hp : Live s p) : p ∈ callers init ops := by
  rcases leak_run (C := []) inv_init h hr (fun p hp => by simp [init, Live] at hp) hp with ⟨i, a, hi, hl, -⟩ | h1
  · rw [hall a (List.mem_of_getElem? hi)] at hl; cases hl
  · simpa using h1

/-- A program using every operation: two arrays, one grown and moved from, one view of storage of the caller, one array
released to the caller, and everything cleaned up. -/
def sample : List Op :=
  [.new [2, 3] true, .resize 0 [4, 4] true, .access 0 [3, 3], .callerNew 6, .wrap [3, 2] 2, .access 1 [2, 1], .move 0, .access 2 [0, 3],
   .resize 0 [2] true, .new0, .resize 3 [5] true, .release 3, .destroy 3, .destroy 2, .destroy 1, .destroy 0,
   .callerDelete 2, .callerDelete 3, .new [2] false]

/-- Whether an operation is allowed can be computed. -/
def allowedB (s : St) : Op → Bool
  | .new sizes _ => decide (GoodShape sizes)
  | .wrap sizes _ => decide (GoodShape sizes)
  | .resize _ sizes ok => decide (GoodShape sizes) && ok
  | .access i idx => match s.objs[i]? with
    | none => true
    | some a => !a.alive || (!a.sizes.isEmpty && decide (idx ∈ allIdx a.sizes) && (a.owned || match a.data with
      | none => false
      | some p => match s.heap[p]? with
        | none => false
        | some b => b.live && decide (prodSizes a.sizes ≤ b.size)))
  | .callerDelete p => (match s.heap[p]? with | none => false | some b => b.live) &&
      s.objs.all (fun a => !(a.alive && a.owned && a.data == some p))
  | _ => true

theorem allowed_of_allowedB {op : Op} (h : allowedB s op = true) : Allowed s op := by
  cases op with
  | new sizes ok => simpa [allowedB, Allowed] using h
  | wrap sizes p => simpa [allowedB, Allowed] using h
  | resize i sizes ok => simpa [allowedB, Allowed] using h
  | access i idx =>
    intro a hi hl
    simp only [allowedB, hi, hl, Bool.not_true, Bool.false_or, Bool.and_eq_true, decide_eq_true_eq, mem_allIdx] at h
    refine ⟨by simpa using h.1.1, h.1.2, fun ho => ?_⟩
    have h3 := h.2
    rw [ho, Bool.false_or] at h3
    cases hd : a.data with
    | none => simp [hd] at h3
    | some p =>
      cases hb : s.heap[p]? with
      | none => simp [hd, hb] at h3
      | some b =>
        simp [hd, hb] at h3
        exact ⟨p, b, rfl, hb, h3.1, h3.2⟩
  | callerDelete p =>
    simp only [allowedB, Bool.and_eq_true, List.all_eq_true] at h
    constructor
    · cases hb : s.heap[p]? with
      | none => simp [hb] at h
      | some b => exact ⟨b, hb, by simpa [hb] using h.1⟩
    · rintro i ⟨a, hi, hl, hw, hd⟩
      have := h.2 a (List.mem_of_getElem? hi)
      simp [hl, hw, hd] at this
  | new0 => trivial
  | move i => trivial
  | release i => trivial
  | destroy i => trivial
  | callerNew n => trivial

/-- Whether a program keeps to what is allowed can be computed. -/
def allowedRunB (s : St) : List Op → Bool
  | [] => true
  | op :: ops => allowedB s op && match step s op with
    | .ok (s', _) => allowedRunB s' ops
    | _ => true

theorem allowedRun_of_B {ops : List Op} (h : allowedRunB s ops = true) : AllowedRun s ops := by
  induction ops generalizing s with
  | nil => trivial
  | cons op ops ih =>
    simp only [allowedRunB, Bool.and_eq_true] at h
    refine ⟨allowed_of_allowedB h.1, fun s' e hs => ih ?_⟩
    simpa [hs] using h.2

/-- The hypotheses of `C60_safe` and `C60_no_leak` are met. -/
example : AllowedRun init sample := allowedRun_of_B (by decide +kernel)

example : ∃ s, run init sample = .ok s ∧ (∀ a ∈ s.objs, a.alive = false) ∧ callers init sample = [2, 3] := by
  refine ⟨_, rfl, ?_, ?_⟩ <;> decide +kernel

/-- **C60** needs allocations to succeed: when `resize` runs out of memory it has already freed the old block and still points
to it, so that destroying the array, as unwinding the stack does, frees it again. -/
theorem C60_negation_bad_alloc : run init [.new [2] true, .resize 0 [3] false, .destroy 0] = .ub .doubleFree := by decide

/-- **C60** needs allocations to succeed: when the first allocation of a default-constructed array fails, the array keeps the
size it did not get, a later smaller `resize` does not allocate, and elements are reached through a null pointer. -/
theorem C60_negation_bad_alloc_null : run init [.new0, .resize 0 [2] false, .resize 0 [1] true, .access 0 [0]] = .ub .nullDeref := by
  decide

/-- An array that has been moved from still reports its number of dimensions, and reaching an element of it is undefined. -/
theorem C60_moved_from {a : Obj} (hd : 0 < a.dim) (h : List Block) (idx : List Int) :
    (moveFrom a).dim = a.dim ∧ access h (moveFrom a) idx = .ub .oob := by
  refine ⟨rfl, ?_⟩
  unfold access
  rw [if_pos (by simpa [moveFrom] using hd)]

end HL.Heap
