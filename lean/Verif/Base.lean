/-
Outcomes of C++ computations and the loop combinator used by the model.

`Out α` separates the four things a call into the C++ code can do: return a value, throw,
run into undefined behaviour, or run for ever.
-/

namespace HL

/-- Exceptions thrown by the modelled code, one constructor per `throw` site. -/
inductive Exn
  | resizeNotOwned            -- NDArray.h:138
  | reduceDim                 -- NDArrayUtils.h:121-124
  | sliceDim                  -- NDArrayUtils.h:179-180
  | sliceIndex                -- NDArrayUtils.h:181-182
  | listSize                  -- Microsynthesis.h:34-35
  | indexDimMismatch          -- Microsynthesis.h:41-42
  | sizeRedefined             -- Microsynthesis.h:51-52
  | tooFewDims                -- Microsynthesis.h:56-57
  | negativeMarginal          -- Microsynthesis.h:62-63
  | dimUndefined              -- Microsynthesis.h:76-77
  | marginalSum               -- Microsynthesis.h:218-219
  | partialSum                -- Microsynthesis.h:234-235
  | div0                      -- Microsynthesis.h:183-184 (debug builds)
  | seedDims                  -- IPF.h:40-41, QISI.cpp:79-80
  | seedSizes                 -- IPF.h:44-45, QISI.cpp:83-84
  | pickFailed                -- QIS.cpp:25, QISI.cpp:22
  | notAllDims                -- QIS.cpp:289
  | sobolDim                  -- Sobol.cpp:11-14
  | sobolExhausted            -- Sobol.cpp:30
  | notInteger                -- Integerise.cpp:16
  | negativePop               -- module.cpp:114, rcpp_api.cpp:427
  | notUnity                  -- rcpp_api.cpp:432
  | listsDiffer               -- module.cpp:180,212,246, rcpp_api.cpp:137
  | notVector                 -- module.cpp:56
  | depleted                  -- DDWR.h:91,113
  | seedMismatchR             -- rcpp_api.cpp:98
  | negativeSeedR             -- rcpp_api.cpp:105
  | invCumNormDomain          -- StatFuncs.cpp:259
  | correlationRange          -- StatFuncs.cpp:318
  | stopIteration             -- module.cpp:149
  | rcppNull                  -- conversion of NULL by Rcpp (rcpp_api.cpp:94,142,310,382)
  | lengthError               -- std::length_error / std::bad_alloc from a vector of impossible size
  deriving DecidableEq, Repr

/-- Kinds of undefined behaviour the model can exhibit. -/
inductive UB
  | oob          -- access outside an allocation or a vector
  | uninit       -- read of storage that has been allocated but never written
  | divZero      -- integer division by zero
  | badCast      -- floating to integer conversion of an unrepresentable value
  | useAfterFree -- access through a pointer to freed memory
  | doubleFree
  | overflow     -- signed integer overflow (where it is modelled)
  | badShift     -- shift by the width of the type or more, __builtin_ctz(0)
  | nullDeref    -- access through a null pointer
  | assertFail   -- `assert` (only reported in builds without NDEBUG)
  deriving DecidableEq, Repr

/-- Result of running a piece of C++. -/
inductive Out (α : Type) : Type
  | ok (a : α)
  | thrown (e : Exn)
  | ub (u : UB)
  | diverges
  deriving DecidableEq, Repr

namespace Out

protected def bind {α β : Type} (x : Out α) (f : α → Out β) : Out β :=
  match x with
  | ok a => f a
  | thrown e => thrown e
  | ub u => ub u
  | diverges => diverges

instance : Monad Out where
  pure := Out.ok
  bind := Out.bind

@[simp] theorem pure_eq {α : Type} (a : α) : (pure a : Out α) = ok a := rfl
@[simp] theorem ok_bind {α β : Type} (a : α) (f : α → Out β) : (ok a >>= f) = f a := rfl
@[simp] theorem thrown_bind {α β : Type} (e : Exn) (f : α → Out β) :
    ((thrown e : Out α) >>= f) = thrown e := rfl
@[simp] theorem ub_bind {α β : Type} (u : UB) (f : α → Out β) :
    ((ub u : Out α) >>= f) = ub u := rfl
@[simp] theorem diverges_bind {α β : Type} (f : α → Out β) :
    ((diverges : Out α) >>= f) = diverges := rfl

instance : LawfulMonad Out := LawfulMonad.mk' (m := Out)
  (id_map := fun x => by cases x <;> rfl)
  (pure_bind := fun _ _ => rfl)
  (bind_assoc := fun x _ _ => by cases x <;> rfl)

@[simp] theorem map_ok {α β : Type} (f : α → β) (a : α) : (f <$> (ok a : Out α)) = ok (f a) := rfl

theorem bind_eq_ok {α β : Type} {x : Out α} {f : α → Out β} {b : β} :
    (x >>= f) = ok b ↔ ∃ a, x = ok a ∧ f a = ok b := by
  cases x <;> simp

section order
open Lean.Order

instance {α : Type} : Lean.Order.PartialOrder (Out α) :=
  inferInstanceAs (Lean.Order.PartialOrder (FlatOrder (diverges : Out α)))

noncomputable instance {α : Type} : CCPO (Out α) :=
  inferInstanceAs (CCPO (FlatOrder (diverges : Out α)))

instance : MonoBind Out where
  bind_mono_left h := by
    cases h
    · exact FlatOrder.rel.bot
    · exact FlatOrder.rel.refl
  bind_mono_right {_ _ x _ _} h := by
    cases x
    · exact h _
    · exact FlatOrder.rel.refl
    · exact FlatOrder.rel.refl
    · exact FlatOrder.rel.refl

end order

end Out

/-- A C++ `while (cond) body;` (also `for (init; cond; step)` with the step folded into the body).
Least fixed point: a loop that never exits has the outcome `diverges`. -/
def loop {σ : Type} (cond : σ → Bool) (body : σ → Out σ) (s : σ) : Out σ := do
  if cond s then
    let s' ← body s
    loop cond body s'
  else
    pure s
partial_fixpoint

theorem loop_unfold {σ : Type} (cond : σ → Bool) (body : σ → Out σ) (s : σ) :
    loop cond body s = if cond s then body s >>= loop cond body else Out.ok s := by
  conv => lhs; rw [loop]
  rfl

theorem loop_exit {σ : Type} {cond : σ → Bool} {body : σ → Out σ} {s : σ} (h : cond s = false) :
    loop cond body s = Out.ok s := by
  rw [loop_unfold]; simp [h]

theorem loop_step {σ : Type} {cond : σ → Bool} {body : σ → Out σ} {s s' : σ}
    (h : cond s = true) (hb : body s = Out.ok s') :
    loop cond body s = loop cond body s' := by
  rw [loop_unfold]; simp [h, hb]

/-- A loop whose guard stays true under an invariant never exits. -/
theorem loop_diverges {σ : Type} {cond : σ → Bool} {body : σ → Out σ} (I : σ → Prop)
    (hI : ∀ s, I s → cond s = true ∧ ∃ s', body s = Out.ok s' ∧ I s') {s : σ} (hs : I s) :
    loop cond body s = Out.diverges := by
  have := loop.fixpoint_induct cond body
    (motive := fun f => ∀ s, I s → f s = Out.diverges)
    (Lean.Order.admissible_pi_apply (fun t (r : Out σ) => I t → r = Out.diverges) (fun _ =>
      Lean.Order.admissible_flatOrder (b := (Out.diverges : Out σ)) _ (fun _ => rfl)))
    (by
      intro f hf s hs
      obtain ⟨hc, s', hb, hs'⟩ := hI s hs
      simp [hc, hb, hf s' hs'])
  exact this s hs

/-- Total-correctness rule: with a variant that strictly decreases the loop exits and keeps the
invariant. -/
theorem loop_terminates {σ : Type} {cond : σ → Bool} {body : σ → Out σ} (I : σ → Prop)
    (v : σ → Nat)
    (hI : ∀ s, I s → cond s = true → ∃ s', body s = Out.ok s' ∧ I s' ∧ v s' < v s) :
    ∀ s, I s → ∃ s', loop cond body s = Out.ok s' ∧ I s' ∧ cond s' = false := by
  intro s
  induction hn : v s using Nat.strongRecOn generalizing s with
  | _ n ih =>
    intro hs
    by_cases hc : cond s = true
    · obtain ⟨s', hb, hs', hv⟩ := hI s hs hc
      rw [loop_step hc hb]
      exact ih (v s') (hn ▸ hv) s' rfl hs'
    · have hc' : cond s = false := by simpa using hc
      exact ⟨s, loop_exit hc', hs, hc'⟩

end HL
