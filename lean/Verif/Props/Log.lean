import Verif.Model.Log
import Mathlib.Data.Nat.Digits.Lemmas
import Mathlib.Tactic.IntervalCases

/-
C61: error messages substitute their arguments in order.
-/

namespace HL
open Log

/-- The placeholder. -/
def hole : List Char := ['%', '%']

/-- `s` contains a placeholder. -/
def HasHole (s : List Char) : Prop := ∃ a b, s = a ++ hole ++ b

theorem find_none {s : List Char} (h : ¬ HasHole s) : find s = none := by
  induction s with
  | nil => rfl
  | cons c s ih =>
    cases s with
    | nil => rfl
    | cons d s =>
      unfold find
      by_cases hc : c = '%' ∧ d = '%'
      · exact absurd ⟨[], s, by simp [hole, hc.1, hc.2]⟩ h
      · rw [if_neg hc, ih]
        · rfl
        · rintro ⟨a, b, e⟩
          exact h ⟨c :: a, b, by rw [e]; simp⟩

theorem find_first : ∀ {s : List Char} (r : List Char), ¬ HasHole (s ++ ['%']) → find (s ++ hole ++ r) = some s.length
  | [], r, _ => by simp [hole, find]
  | [c], r, h => by
    show find (c :: '%' :: '%' :: r) = _
    unfold find
    have : ¬ (c = '%' ∧ '%' = '%') := by
      rintro ⟨hc, -⟩
      exact h ⟨[], [], by simp [hole, hc]⟩
    rw [if_neg this]
    unfold find
    simp
  | c :: d :: s, r, h => by
    show find (c :: d :: (s ++ hole ++ r)) = _
    unfold find
    have : ¬ (c = '%' ∧ d = '%') := by
      rintro ⟨hc, hd⟩
      exact h ⟨[], s ++ ['%'], by simp [hole, hc, hd]⟩
    rw [if_neg this]
    have ih := find_first (s := d :: s) r (by
      rintro ⟨a, b, e⟩
      exact h ⟨c :: a, b, by
        have : c :: d :: s ++ ['%'] = c :: ((d :: s) ++ ['%']) := rfl
        rw [this, e]; simp⟩)
    have e : d :: (s ++ hole ++ r) = d :: s ++ hole ++ r := rfl
    rw [e, ih]
    rfl

/-- **C61**, one argument: the first placeholder is replaced by the argument and the rest of the text is unchanged,
whatever follows it and whatever the argument. -/
theorem C61_step {s : List Char} (h : ¬ HasHole (s ++ ['%'])) (v r : List Char) : subst (s ++ hole ++ r) v = s ++ v ++ r := by
  unfold subst
  rw [find_first r h]
  simp only
  have h1 : (s ++ hole ++ r).take s.length = s := by simp
  have h2 : (s ++ hole ++ r).drop (s.length + 2) = r := by
    rw [List.append_assoc, ← List.drop_drop, List.drop_left]
    rfl
  rw [h1, h2]

theorem not_hasHole {s : List Char} (h : '%' ∉ s) : ¬ HasHole (s ++ ['%']) := by
  rintro ⟨a, b, e⟩
  have h1 := congrArg (fun l => l.count '%') e
  simp only [List.count_append, hole, List.count_eq_zero.mpr h] at h1
  simp at h1
  omega

/-- **C61**: a template made of the text `t` and, for each pair in `ps`, a placeholder and a text, followed by anything,
formatted with the first components of the pairs, is the same with the placeholders replaced by the arguments in
order; for texts and arguments without percent signs. -/
theorem C61_format {t : List Char} {ps : List (List Char × List Char)} (ht : '%' ∉ t) (hp : ∀ p ∈ ps, '%' ∉ p.1 ∧ '%' ∉ p.2)
    (rest : List Char) :
    format (t ++ ps.flatMap (fun p => hole ++ p.2) ++ rest) (ps.map Prod.fst) = t ++ ps.flatMap (fun p => p.1 ++ p.2) ++ rest := by
  induction ps generalizing t with
  | nil => rfl
  | cons p ps ih =>
    obtain ⟨h1, h2⟩ := hp p (by simp)
    unfold format
    rw [List.map_cons, List.foldl_cons, List.flatMap_cons]
    have e : t ++ (hole ++ p.2 ++ ps.flatMap (fun p => hole ++ p.2)) ++ rest =
        t ++ hole ++ (p.2 ++ ps.flatMap (fun p => hole ++ p.2) ++ rest) := by simp
    rw [e, C61_step (not_hasHole ht)]
    have e2 : t ++ p.1 ++ (p.2 ++ ps.flatMap (fun p => hole ++ p.2) ++ rest) =
        (t ++ p.1 ++ p.2) ++ ps.flatMap (fun p => hole ++ p.2) ++ rest := by simp
    rw [e2]
    have := ih (t := t ++ p.1 ++ p.2) (by simp [ht, h1, h2]) (fun q hq => hp q (by simp [hq]))
    unfold format at this
    rw [this]
    simp

/-- **C61**, more arguments than placeholders: the surplus is ignored. -/
theorem C61_surplus {s : List Char} (h : ¬ HasHole s) (args : List (List Char)) : format s args = s := by
  unfold format
  induction args with
  | nil => rfl
  | cons a args ih =>
    rw [List.foldl_cons]
    have : subst s a = s := by unfold subst; rw [find_none h]
    rw [this]
    exact ih

/-- The restriction on the arguments matters: a placeholder in an argument is taken for one of the template. -/
theorem C61_negation_nested : format ("a %% b %%".toList) ["%%".toList, "x".toList] = "a x b %%".toList := by decide

theorem natText_digits {n : Nat} {c : Char} (h : c ∈ natText n) : ∃ d < 10, c = Nat.digitChar d := by
  unfold natText at h
  split at h
  · simp at h; exact ⟨0, by norm_num, by rw [h]; rfl⟩
  · rw [List.mem_reverse, List.mem_map] at h
    obtain ⟨d, hd, rfl⟩ := h
    exact ⟨d, Nat.digits_lt_base (by norm_num) hd, rfl⟩

theorem natText_pure (n : Nat) : '%' ∉ natText n := by
  intro h
  obtain ⟨d, hd, e⟩ := natText_digits h
  interval_cases d <;> revert e <;> decide

/-- **C61**: the arguments the library passes, integers and vectors of them, meet the restriction. -/
theorem C61_arguments (z : Int) (v : List Int) : '%' ∉ intText z ∧ '%' ∉ vecText (v.map intText) := by
  have hi : ∀ z, '%' ∉ intText z := by
    intro z
    unfold intText
    split
    · simp [natText_pure]
    · exact natText_pure _
  refine ⟨hi z, ?_⟩
  cases v with
  | nil => decide
  | cons x xs =>
    unfold vecText
    simp only [List.map_cons, List.mem_append, List.mem_cons, List.mem_flatMap, List.mem_map, not_or, not_exists]
    refine ⟨⟨⟨by decide, hi x⟩, ?_⟩, by decide, by simp⟩
    rintro t ⟨⟨y, -, rfl⟩, h⟩
    rcases h with (h | h | h) | h
    · exact absurd h (by decide)
    · exact absurd h (by decide)
    · simp at h
    · exact hi y h

example : format "mismatch at index %%: dimension %% size %% redefined to %%".toList [intText 2, intText 0, intText 4, intText 5] =
    "mismatch at index 2: dimension 0 size 4 redefined to 5".toList := by decide

example : format "seed dimensions %% vs %%".toList [vecText [intText 2, intText 3], intText (-7)] = "seed dimensions [2, 3] vs -7".toList := by
  decide

end HL
