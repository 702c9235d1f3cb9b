import Verif.HeapSpec
import Verif.Proof.ArrayLemmas

/- Ownership of array storage: the invariant and its preservation. -/

namespace HL.Heap

/-- The members of an array fit together. -/
def Shaped (a : Obj) : Prop :=
  a.sizes ≠ [] → GoodShape a.sizes ∧ a.dim = a.sizes.length ∧ a.offsets = offs a.sizes ∧ a.storage = prodSizes a.sizes

/-- The storage of an array that owns its storage. -/
def Backed (h : List Block) (a : Obj) : Prop :=
  (a.data = none ∧ a.storage = 0 ∧ a.sizes = []) ∨
    ∃ p b, a.data = some p ∧ h[p]? = some b ∧ b.live = true ∧ a.storage ≤ b.size

structure Inv (s : St) : Prop where
  shaped : ∀ (i : Nat) (a : Obj), s.objs[i]? = some a → a.alive = true → Shaped a
  backed : ∀ (i : Nat) (a : Obj), s.objs[i]? = some a → a.alive = true → a.owned = true → Backed s.heap a
  unique : ∀ i j p, Owns s i p → Owns s j p → i = j

theorem inv_init : Inv init := by
  constructor <;> simp [init, Owns]

theorem Inv.owns_live {s : St} (h : Inv s) {i p : Nat} (ho : Owns s i p) : Live s p := by
  obtain ⟨a, ha, hl, hw, hd⟩ := ho
  rcases h.backed i a ha hl hw with ⟨h1, -⟩ | ⟨q, b, h1, h2, h3, -⟩
  · rw [h1] at hd; cases hd
  · rw [h1] at hd; cases hd; exact ⟨b, h2, h3⟩

theorem owns_set {s : St} {h' : List Block} {i : Nat} {a a' : Obj} (hi : s.objs[i]? = some a) {j p : Nat} :
    Owns ⟨h', s.objs.set i a'⟩ j p ↔
      (j = i ∧ a'.alive = true ∧ a'.owned = true ∧ a'.data = some p) ∨ (j ≠ i ∧ Owns s j p) := by
  have hlt : i < s.objs.length := (List.getElem?_eq_some_iff.mp hi).1
  unfold Owns
  by_cases hj : j = i
  · subst hj
    simp [hlt]
  · have : (s.objs.set i a')[j]? = s.objs[j]? := by simp [List.getElem?_set, Ne.symm hj]
    simp [this, hj]

theorem inv_set {s : St} (h : Inv s) {h' : List Block} {i : Nat} {a a' : Obj} (hi : s.objs[i]? = some a)
    (hsh : a'.alive = true → Shaped a') (hb : a'.alive = true → a'.owned = true → Backed h' a')
    (hkeep : ∀ j p, j ≠ i → Owns s j p → h'[p]? = s.heap[p]?)
    (hnew : ∀ p, a'.alive = true → a'.owned = true → a'.data = some p → ∀ j, j ≠ i → ¬ Owns s j p) :
    Inv ⟨h', s.objs.set i a'⟩ := by
  have hlt : i < s.objs.length := (List.getElem?_eq_some_iff.mp hi).1
  have hcase : ∀ j x, (s.objs.set i a')[j]? = some x → (j = i ∧ x = a') ∨ (j ≠ i ∧ s.objs[j]? = some x) := by
    intro j x hx
    by_cases hj : j = i
    · subst hj; simp [hlt] at hx; exact .inl ⟨rfl, hx.symm⟩
    · rw [List.getElem?_set, if_neg (Ne.symm hj)] at hx; exact .inr ⟨hj, hx⟩
  constructor
  · intro j x hx hl
    rcases hcase j x hx with ⟨rfl, rfl⟩ | ⟨hj, hx⟩
    · exact hsh hl
    · exact h.shaped j x hx hl
  · intro j x hx hl hw
    rcases hcase j x hx with ⟨rfl, rfl⟩ | ⟨hj, hx⟩
    · exact hb hl hw
    · rcases h.backed j x hx hl hw with h1 | ⟨p, b, h1, h2, h3, h4⟩
      · exact .inl h1
      · exact .inr ⟨p, b, h1, by rw [← h2]; exact hkeep j p hj ⟨x, hx, hl, hw, h1⟩, h3, h4⟩
  · intro j k p hj hk
    rw [owns_set hi] at hj hk
    rcases hj with ⟨rfl, a1, a2, a3⟩ | ⟨hj, oj⟩ <;> rcases hk with ⟨rfl, b1, b2, b3⟩ | ⟨hk, ok⟩
    · rfl
    · exact absurd ok (hnew p a1 a2 a3 k hk)
    · exact absurd oj (hnew p b1 b2 b3 j hj)
    · exact h.unique j k p oj ok

theorem owns_append {s : St} {h' : List Block} {a' : Obj} {j p : Nat} :
    Owns ⟨h', s.objs ++ [a']⟩ j p ↔
      (j = s.objs.length ∧ a'.alive = true ∧ a'.owned = true ∧ a'.data = some p) ∨ Owns s j p := by
  unfold Owns
  rcases lt_trichotomy j s.objs.length with hj | hj | hj
  · rw [List.getElem?_append_left hj]; simp [hj.ne]
  · subst hj; simp
  · rw [List.getElem?_eq_none (by simp; omega), List.getElem?_eq_none hj.le]; simp [hj.ne']

theorem inv_append {s : St} (h : Inv s) {h' : List Block} {a' : Obj}
    (hsh : a'.alive = true → Shaped a') (hb : a'.alive = true → a'.owned = true → Backed h' a')
    (hkeep : ∀ j p, Owns s j p → h'[p]? = s.heap[p]?)
    (hnew : ∀ p, a'.alive = true → a'.owned = true → a'.data = some p → ∀ j, ¬ Owns s j p) :
    Inv ⟨h', s.objs ++ [a']⟩ := by
  have hcase : ∀ (j : Nat) (x : Obj), (s.objs ++ [a'])[j]? = some x → x = a' ∨ s.objs[j]? = some x := by
    intro j x hx
    rcases lt_trichotomy j s.objs.length with hj | hj | hj
    · rw [List.getElem?_append_left hj] at hx; exact .inr hx
    · subst hj; simp at hx; exact .inl hx.symm
    · rw [List.getElem?_eq_none (by simp; omega)] at hx; cases hx
  constructor
  · intro j x hx hl
    rcases hcase j x hx with rfl | hx
    · exact hsh hl
    · exact h.shaped j x hx hl
  · intro j x hx hl hw
    rcases hcase j x hx with rfl | hx
    · exact hb hl hw
    · rcases h.backed j x hx hl hw with h1 | ⟨p, b, h1, h2, h3, h4⟩
      · exact .inl h1
      · exact .inr ⟨p, b, h1, by rw [← h2]; exact hkeep j p ⟨x, hx, hl, hw, h1⟩, h3, h4⟩
  · intro j k p hj hk
    rw [owns_append] at hj hk
    rcases hj with ⟨rfl, a1, a2, a3⟩ | oj <;> rcases hk with ⟨rfl, b1, b2, b3⟩ | ok
    · rfl
    · exact absurd ok (hnew p a1 a2 a3 k)
    · exact absurd oj (hnew p b1 b2 b3 j)
    · exact h.unique j k p oj ok

/-- What `resize` does to an array that owns its storage, for proper sizes. -/
theorem resize_owned {h : List Block} {a : Obj} {sizes : List Nat} (hg : GoodShape sizes) (ho : a.owned = true)
    (hb : Backed h a) :
    resize h a sizes true =
      .ok (if prodSizes sizes > a.storage then
        ((match a.data with | none => h | some p => h.modify p (fun b => { b with live := false })) ++ [⟨prodSizes sizes, true⟩],
          { a with dim := sizes.length, sizes := sizes, offsets := offs sizes, storage := prodSizes sizes, data := some h.length }, .done)
        else (h, { a with dim := sizes.length, sizes := sizes, offsets := offs sizes, storage := prodSizes sizes }, .done)) := by
  unfold resize
  rw [if_pos ho]
  obtain ⟨n, t, rfl⟩ : ∃ n t, sizes = n :: t := by
    cases sizes with
    | nil => exact absurd rfl hg.1
    | cons n t => exact ⟨n, t, rfl⟩
  simp only [computeOffsets_eq hg.2]
  split_ifs with hgt
  · rcases hb with ⟨h1, -⟩ | ⟨p, b, h1, h2, h3, -⟩
    · simp [h1, deallocate, allocate, Out.ok_bind, Out.pure_eq]
    · have hlt := (List.getElem?_eq_some_iff.mp h2)
      have : h.modify p (fun b => { b with live := false }) = h.set p { b with live := false } := by
        apply List.ext_getElem?
        intro k
        rw [List.getElem?_modify, List.getElem?_set]
        by_cases hk : p = k
        · subst hk; simp [hlt.1, ← hlt.2]
        · simp [hk]
      simp [h1, deallocate, h2, h3, allocate, Out.ok_bind, Out.pure_eq, this]
  · simp [Out.ok_bind, Out.pure_eq]

theorem resize_not_owned {h : List Block} {a : Obj} {sizes : List Nat} {ok : Bool} (ho : a.owned = false) :
    resize h a sizes ok = .ok (h, a, .notOwned) := by
  unfold resize; simp [ho]

theorem resize_empty_false {h : List Block} {sizes : List Nat} (hg : GoodShape sizes) :
    resize h { empty with dim := sizes.length, sizes := sizes } sizes false =
      .ok (h, { empty with dim := sizes.length, sizes := sizes, storage := prodSizes sizes }, .badAlloc) := by
  unfold resize
  obtain ⟨n, t, rfl⟩ : ∃ n t, sizes = n :: t := by
    cases sizes with
    | nil => exact absurd rfl hg.1
    | cons n t => exact ⟨n, t, rfl⟩
  have := prodSizes_pos hg.2
  simp [empty, deallocate, this, Out.ok_bind, Out.pure_eq]

theorem resize_empty_true {h : List Block} {sizes : List Nat} (hg : GoodShape sizes) :
    resize h { empty with dim := sizes.length, sizes := sizes } sizes true =
      .ok (h ++ [⟨prodSizes sizes, true⟩],
        { empty with dim := sizes.length, sizes := sizes, offsets := offs sizes, storage := prodSizes sizes, data := some h.length }, .done) := by
  unfold resize
  obtain ⟨n, t, rfl⟩ : ∃ n t, sizes = n :: t := by
    cases sizes with
    | nil => exact absurd rfl hg.1
    | cons n t => exact ⟨n, t, rfl⟩
  have := prodSizes_pos hg.2
  simp [empty, deallocate, allocate, this, computeOffsets_eq hg.2, Out.ok_bind, Out.pure_eq]

theorem wrapObj_eq {sizes : List Nat} (hg : GoodShape sizes) (p : Nat) :
    wrapObj sizes p = .ok { dim := sizes.length, sizes := sizes, offsets := offs sizes, storage := prodSizes sizes, data := some p, owned := false, alive := true } := by
  unfold wrapObj
  obtain ⟨n, t, rfl⟩ : ∃ n t, sizes = n :: t := by
    cases sizes with
    | nil => exact absurd rfl hg.1
    | cons n t => exact ⟨n, t, rfl⟩
  simp [computeOffsets_eq hg.2, Out.ok_bind, Out.pure_eq]

theorem offs_length (s : List Nat) : (offs s).length = s.length := by simp [offs]

theorem access_ok {h : List Block} {a : Obj} {idx : List Int} (hs : Shaped a) (hne : a.sizes ≠ []) (hr : InRange a.sizes idx)
    {p : Nat} {b : Block} (hd : a.data = some p) (hb : h[p]? = some b) (hl : b.live = true) (hsz : prodSizes a.sizes ≤ b.size) :
    access h a idx = .ok () := by
  obtain ⟨-, h1, h2, -⟩ := hs hne
  obtain ⟨k, hk, hlt, -⟩ := getElem_rank hr
  unfold access
  rw [h2, h1, offs_length, if_neg (lt_irrefl _), List.take_of_length_le (by rw [offs_length]), offset_eq_rank (inRange_length hr), hk]
  have : (k : Int) < b.size := by omega
  simp [Out.ok_bind, hd, hb, hl, this]

theorem heap_set_other {h : List Block} {p q : Nat} {b : Block} (hpq : p ≠ q) : (h.set p b)[q]? = h[q]? := by
  simp [List.getElem?_set, hpq]

/-- Every allowed operation is defined and keeps the invariant. -/
theorem step_inv {s : St} (h : Inv s) {op : Op} (ha : Allowed s op) : ∃ s' e, step s op = .ok (s', e) ∧ Inv s' := by
  have hlive : ∀ {j p}, Owns s j p → p < s.heap.length := fun ho => by
    obtain ⟨b, hb, -⟩ := h.owns_live ho
    exact (List.getElem?_eq_some_iff.mp hb).1
  cases op with
  | new0 =>
    refine ⟨_, _, rfl, inv_append h ?_ ?_ (fun _ _ _ => rfl) ?_⟩
    · intro _; simp [Shaped, empty]
    · intro _ _; exact .inl ⟨rfl, rfl, rfl⟩
    · intro p _ _ hp; simp [empty] at hp
  | new sizes ok =>
    cases ok with
    | true =>
      refine ⟨_, _, by simp only [step, resize_empty_true ha, Out.ok_bind, Out.pure_eq]; rfl, inv_append h ?_ ?_ ?_ ?_⟩
      · intro _ _; exact ⟨ha, rfl, rfl, rfl⟩
      · intro _ _; exact .inr ⟨s.heap.length, ⟨prodSizes sizes, true⟩, rfl, by simp, rfl, le_refl _⟩
      · intro j p ho; rw [List.getElem?_append_left (hlive ho)]
      · intro p _ _ hp j ho
        cases hp; exact absurd (hlive ho) (lt_irrefl _)
    | false =>
      refine ⟨_, _, by simp only [step, resize_empty_false ha, Out.ok_bind, Out.pure_eq]; rfl, inv_append h ?_ ?_ ?_ ?_⟩
      · intro hl; simp at hl
      · intro hl; simp at hl
      · intro j p ho; rfl
      · intro p hl; simp at hl
  | wrap sizes p =>
    refine ⟨_, _, by simp [step, wrapObj_eq ha, Out.ok_bind, Out.pure_eq]; exact ⟨rfl, rfl⟩, inv_append h ?_ ?_ (fun _ _ _ => rfl) ?_⟩
    · intro _ _; exact ⟨ha, rfl, rfl, rfl⟩
    · intro _ hw; simp at hw
    · intro p _ hw; simp at hw
  | move i =>
    simp only [step]
    cases hi : s.objs[i]? with
    | none => exact ⟨_, _, rfl, h⟩
    | some a =>
      by_cases hl : a.alive = true
      · simp only [hl, if_true]
        refine ⟨_, _, rfl, ?_⟩
        have h1 : Inv ⟨s.heap, s.objs.set i (moveFrom a)⟩ :=
          inv_set h hi (fun _ hne => absurd rfl hne) (fun _ hw => by simp [moveFrom] at hw) (fun _ _ _ _ => rfl)
            (fun _ _ hw => by simp [moveFrom] at hw)
        refine inv_append h1 (fun _ => h.shaped i a hi hl) (fun _ hw => h.backed i a hi hl hw) (fun _ _ _ => rfl) ?_
        intro p _ hw hd j hj
        rw [owns_set hi] at hj
        rcases hj with ⟨-, -, hw', -⟩ | ⟨hj, oj⟩
        · simp [moveFrom] at hw'
        · exact hj (h.unique j i p oj ⟨a, hi, hl, hw, hd⟩)
      · simp only [hl]
        exact ⟨_, _, rfl, h⟩
  | resize i sizes ok =>
    obtain ⟨hg, rfl⟩ := ha
    simp only [step]
    cases hi : s.objs[i]? with
    | none => exact ⟨_, _, rfl, h⟩
    | some a =>
      by_cases hl : a.alive = true
      · simp only [hl, if_true]
        cases hw : a.owned with
        | false =>
          rw [resize_not_owned hw]
          refine ⟨_, _, rfl, inv_set h hi (fun _ => h.shaped i a hi hl) (fun _ hw' => by rw [hw] at hw'; cases hw') (fun _ _ _ _ => rfl)
            (fun _ _ hw' => by rw [hw] at hw'; cases hw')⟩
        | true =>
          have hb := h.backed i a hi hl hw
          rw [resize_owned hg hw hb]
          by_cases hgt : prodSizes sizes > a.storage
          · rw [if_pos hgt]
            refine ⟨_, _, rfl, inv_set h hi (fun _ _ => ⟨hg, rfl, rfl, rfl⟩) (fun _ _ => .inr ⟨s.heap.length, ⟨prodSizes sizes, true⟩, rfl, ?_, rfl, le_refl _⟩) ?_ ?_⟩
            · cases a.data <;> simp
            · intro j p hj ho
              rw [List.getElem?_append_left (by cases a.data <;> simpa using hlive ho)]
              cases hd : a.data with
              | none => rfl
              | some q =>
                have : q ≠ p := by
                  rintro rfl
                  exact hj (h.unique j i q ho ⟨a, hi, hl, hw, hd⟩)
                simp [List.getElem?_modify, this]
            · intro p _ _ hp j hj ho
              cases hp
              exact absurd (hlive ho) (lt_irrefl _)
          · rw [if_neg hgt]
            refine ⟨_, _, rfl, inv_set h hi (fun _ _ => ⟨hg, rfl, rfl, rfl⟩) (fun _ _ => ?_) (fun _ _ _ _ => rfl) ?_⟩
            · rcases hb with ⟨h1, h2, -⟩ | ⟨p, b, h1, h2, h3, h4⟩
              · exact absurd (prodSizes_pos hg.2) (by omega)
              · exact .inr ⟨p, b, h1, h2, h3, by show prodSizes sizes ≤ _; omega⟩
            · intro p _ _ hp j hj ho
              exact hj (h.unique j i p ho ⟨a, hi, hl, hw, hp⟩)
      · simp only [hl]
        exact ⟨_, _, rfl, h⟩
  | release i =>
    simp only [step]
    cases hi : s.objs[i]? with
    | none => exact ⟨_, _, rfl, h⟩
    | some a =>
      by_cases hl : a.alive = true
      · simp only [hl, if_true]
        exact ⟨_, _, rfl, inv_set h hi (fun _ => h.shaped i a hi hl) (fun _ hw => by simp at hw) (fun _ _ _ _ => rfl) (fun _ _ hw => by simp at hw)⟩
      · simp only [hl]
        exact ⟨_, _, rfl, h⟩
  | destroy i =>
    simp only [step]
    cases hi : s.objs[i]? with
    | none => exact ⟨_, _, rfl, h⟩
    | some a =>
      by_cases hl : a.alive = true
      · simp only [hl, if_true, destroy]
        cases hw : a.owned with
        | false =>
          exact ⟨_, _, rfl, inv_set h hi (fun hl => by simp at hl) (fun hl => by simp at hl) (fun _ _ _ _ => rfl) (fun _ hl => by simp at hl)⟩
        | true =>
          rcases h.backed i a hi hl hw with ⟨h1, -⟩ | ⟨p, b, h1, h2, h3, -⟩
          · simp only [if_true, h1, deallocate, Out.ok_bind, Out.pure_eq]
            exact ⟨_, _, rfl, inv_set h hi (fun hl => by simp at hl) (fun hl => by simp at hl) (fun _ _ _ _ => rfl) (fun _ hl => by simp at hl)⟩
          · simp only [if_true, h1, deallocate, h2, h3, Out.ok_bind, Out.pure_eq]
            refine ⟨_, _, rfl, inv_set h hi (fun hl => by simp at hl) (fun hl => by simp at hl) ?_ (fun _ hl => by simp at hl)⟩
            intro j q hj ho
            refine heap_set_other ?_
            rintro rfl
            exact hj (h.unique j i p ho ⟨a, hi, hl, hw, h1⟩)
      · simp only [hl]
        exact ⟨_, _, rfl, h⟩
  | access i idx =>
    simp only [step]
    cases hi : s.objs[i]? with
    | none => exact ⟨_, _, rfl, h⟩
    | some a =>
      by_cases hl : a.alive = true
      · simp only [hl, if_true]
        obtain ⟨hne, hr, hno⟩ := ha a hi hl
        have hs := h.shaped i a hi hl
        have : access s.heap a idx = .ok () := by
          cases hw : a.owned with
          | false =>
            obtain ⟨p, b, h1, h2, h3, h4⟩ := hno hw
            exact access_ok hs hne hr h1 h2 h3 h4
          | true =>
            rcases h.backed i a hi hl hw with ⟨-, -, h3⟩ | ⟨p, b, h1, h2, h3, h4⟩
            · exact absurd h3 hne
            · exact access_ok hs hne hr h1 h2 h3 (by rw [← (hs hne).2.2.2]; exact h4)
        rw [this]
        exact ⟨_, _, rfl, h⟩
      · simp only [hl]
        exact ⟨_, _, rfl, h⟩
  | callerNew size =>
    refine ⟨_, _, rfl, ⟨h.shaped, ?_, h.unique⟩⟩
    intro i a hi hl hw
    rcases h.backed i a hi hl hw with h1 | ⟨p, b, h1, h2, h3, h4⟩
    · exact .inl h1
    · refine .inr ⟨p, b, h1, ?_, h3, h4⟩
      show (s.heap ++ _)[p]? = _
      rw [List.getElem?_append_left (List.getElem?_eq_some_iff.mp h2).1, h2]
  | callerDelete p =>
    obtain ⟨⟨b, hb, hl⟩, hno⟩ := ha
    simp only [step, deallocate, hb, hl, if_true, Out.ok_bind, Out.pure_eq]
    refine ⟨_, _, rfl, ⟨h.shaped, ?_, h.unique⟩⟩
    intro i a hi hl hw
    rcases h.backed i a hi hl hw with h1 | ⟨q, b, h1, h2, h3, h4⟩
    · exact .inl h1
    · refine .inr ⟨q, b, h1, ?_, h3, h4⟩
      rw [← h2]
      refine heap_set_other ?_
      rintro rfl
      exact hno i ⟨a, hi, hl, hw, h1⟩

theorem run_inv {s : St} (h : Inv s) {ops : List Op} (ha : AllowedRun s ops) : ∃ s', run s ops = .ok s' ∧ Inv s' := by
  induction ops generalizing s with
  | nil => exact ⟨s, rfl, h⟩
  | cons op ops ih =>
    obtain ⟨s', e, h1, h2⟩ := step_inv h ha.1
    obtain ⟨s'', h3, h4⟩ := ih h2 (ha.2 s' e h1)
    exact ⟨s'', by simp [run, h1, h3, Out.ok_bind], h4⟩

theorem live_of_heap {h h' : List Block} {o o' : List Obj} {p : Nat} (he : h'[p]? = h[p]?) : Live ⟨h', o'⟩ p ↔ Live ⟨h, o⟩ p := by
  simp [Live, he]

theorem deallocate_ok {h h' : List Block} {q : Option Nat} (hd : deallocate h q = .ok h') :
    h'.length = h.length ∧ ∀ p, h'[p]? = h[p]? ∨ (q = some p ∧ ∃ b, h[p]? = some b ∧ b.live = true ∧ h'[p]? = some { b with live := false }) := by
  cases q with
  | none => cases hd; exact ⟨rfl, fun _ => .inl rfl⟩
  | some k =>
    simp only [deallocate] at hd
    cases hk : h[k]? with
    | none => simp [hk] at hd
    | some b =>
      simp only [hk] at hd
      split_ifs at hd with hl
      cases hd
      refine ⟨by simp, fun p => ?_⟩
      by_cases hp : k = p
      · subst hp
        exact .inr ⟨rfl, b, hk, hl, by simp [(List.getElem?_eq_some_iff.mp hk).1]⟩
      · exact .inl (by simp [hp])

/-- What `resize` can do to the heap and to what the array owns, in any state. -/
theorem resize_effect {h h' : List Block} {a a' : Obj} {sizes : List Nat} {ok : Bool} {e : End} (hr : resize h a sizes ok = .ok (h', a', e)) :
    h.length ≤ h'.length ∧ (∀ p, p < h.length → h'[p]? = h[p]? ∨ (a.owned = true ∧ a.data = some p)) ∧
    a'.alive = a.alive ∧ a'.owned = a.owned ∧
    ((a'.data = a.data ∧ (h'.length = h.length)) ∨ (a'.data = some h.length ∧ a'.owned = true ∧ h'.length = h.length + 1 ∧ ∀ p, a.data = some p → ∃ b, h'[p]? = some b ∧ b.live = false)) ∧
    (ok = true → a'.data = a.data → h' = h) := by
  unfold resize at hr
  by_cases ho : a.owned = true
  · rw [if_pos ho] at hr
    cases sizes with
    | nil => cases hr
    | cons n t =>
      simp only at hr
      by_cases hgt : prodSizes (n :: t) > a.storage
      · rw [if_pos hgt] at hr
        obtain ⟨h1, hd, hr⟩ := Out.bind_eq_ok.mp hr
        obtain ⟨hlen, heff⟩ := deallocate_ok hd
        by_cases hok : ok = true
        · rw [if_pos hok] at hr
          obtain ⟨o, ho1, hr⟩ := Out.bind_eq_ok.mp hr
          simp only [allocate, Out.pure_eq, Out.ok.injEq, Prod.mk.injEq] at hr
          obtain ⟨rfl, rfl, rfl⟩ := hr
          refine ⟨by simp [hlen], ?_, rfl, rfl, .inr ⟨by simp [hlen], ho, by simp [hlen], ?_⟩, ?_⟩
          · intro p hp
            rw [List.getElem?_append_left (by omega)]
            rcases heff p with h2 | ⟨h2, -⟩
            · exact .inl h2
            · exact .inr ⟨ho, h2⟩
          · intro p hp
            rw [hp] at hd
            simp only [deallocate] at hd
            cases hk : h[p]? with
            | none => simp [hk] at hd
            | some b =>
              simp only [hk] at hd
              split_ifs at hd with hl
              cases hd
              refine ⟨{ b with live := false }, ?_, rfl⟩
              have hlt := (List.getElem?_eq_some_iff.mp hk).1
              rw [List.getElem?_append_left (by simpa using hlt)]
              simp [hlt]
          · intro _ hda
            exfalso
            simp only [hlen] at hda
            rw [← hda] at hd
            simp [deallocate] at hd
        · rw [if_neg hok] at hr
          simp only [Out.pure_eq, Out.ok.injEq, Prod.mk.injEq] at hr
          obtain ⟨rfl, rfl, rfl⟩ := hr
          refine ⟨hlen.ge, ?_, rfl, rfl, .inl ⟨rfl, hlen⟩, fun h => absurd h hok⟩
          intro p hp
          rcases heff p with h2 | ⟨h2, -⟩
          · exact .inl h2
          · exact .inr ⟨ho, h2⟩
      · rw [if_neg hgt] at hr
        obtain ⟨o, ho1, hr⟩ := Out.bind_eq_ok.mp hr
        simp only [Out.pure_eq, Out.ok.injEq, Prod.mk.injEq] at hr
        obtain ⟨rfl, rfl, rfl⟩ := hr
        exact ⟨le_refl _, fun _ _ => .inl rfl, rfl, rfl, .inl ⟨rfl, rfl⟩, fun _ _ => rfl⟩
  · rw [if_neg ho] at hr
    cases hr
    exact ⟨le_refl _, fun _ _ => .inl rfl, rfl, rfl, .inl ⟨rfl, rfl⟩, fun _ _ => rfl⟩

theorem step_effect {s s' : St} {op : Op} {e : End} (hs : step s op = .ok (s', e)) :
    s.heap.length ≤ s'.heap.length ∧
    (∀ p, p < s.heap.length → s'.heap[p]? = s.heap[p]? ∨ op = .callerDelete p ∨
      ∃ i, Owns s i p ∧ (op = .destroy i ∨ ∃ sizes ok, op = .resize i sizes ok)) ∧
    (∀ i p, Owns s' i p → (∃ j, Owns s j p) ∨ s.heap.length ≤ p) := by
  have hid : s.heap.length ≤ s.heap.length ∧
    (∀ p, p < s.heap.length → s.heap[p]? = s.heap[p]? ∨ op = .callerDelete p ∨
      ∃ i, Owns s i p ∧ (op = .destroy i ∨ ∃ sizes ok, op = .resize i sizes ok)) ∧
    (∀ i p, Owns s i p → (∃ j, Owns s j p) ∨ s.heap.length ≤ p) := ⟨le_refl _, fun _ _ => .inl rfl, fun i p h => .inl ⟨i, h⟩⟩
  cases op with
  | new0 =>
    cases hs
    refine ⟨le_refl _, fun _ _ => .inl rfl, fun i p h => ?_⟩
    rcases owns_append.mp h with ⟨-, -, -, h4⟩ | h
    · simp [empty] at h4
    · exact .inl ⟨i, h⟩
  | new sizes ok =>
    obtain ⟨⟨h, a, e'⟩, hr, hs⟩ := Out.bind_eq_ok.mp hs
    cases hs
    obtain ⟨h1, h2, h3, h4, h5, -⟩ := resize_effect hr
    refine ⟨h1, fun p hp => ?_, fun i p ho => ?_⟩
    · rcases h2 p hp with h6 | ⟨-, h6⟩
      · exact .inl h6
      · simp [empty] at h6
    · rcases owns_append.mp ho with ⟨-, -, -, h6⟩ | ho
      · rcases h5 with ⟨h5, -⟩ | ⟨h5, -⟩
        · simp [h5, empty] at h6
        · simp [h5] at h6; exact .inr h6.le
      · exact .inl ⟨i, ho⟩
  | wrap sizes p =>
    obtain ⟨a, hr, hs⟩ := Out.bind_eq_ok.mp hs
    cases hs
    refine ⟨le_refl _, fun _ _ => .inl rfl, fun i p ho => ?_⟩
    rcases owns_append.mp ho with ⟨-, -, h5, -⟩ | ho
    · unfold wrapObj at hr
      cases sizes with
      | nil => cases hr
      | cons n t =>
        obtain ⟨o, -, hr⟩ := Out.bind_eq_ok.mp hr
        cases hr
        simp at h5
    · exact .inl ⟨i, ho⟩
  | move i =>
    simp only [step] at hs
    cases hi : s.objs[i]? with
    | none => simp only [hi] at hs; cases hs; exact hid
    | some a =>
      simp only [hi] at hs
      by_cases hl : a.alive = true
      · rw [if_pos hl] at hs
        cases hs
        refine ⟨le_refl _, fun _ _ => .inl rfl, fun j p ho => ?_⟩
        rcases (owns_append (s := ⟨s.heap, s.objs.set i (moveFrom a)⟩)).mp ho with ⟨-, h1, h2, h3⟩ | ho
        · exact .inl ⟨i, a, hi, h1, h2, h3⟩
        · rcases (owns_set hi).mp ho with ⟨-, -, h3, -⟩ | ⟨-, ho⟩
          · simp [moveFrom] at h3
          · exact .inl ⟨j, ho⟩
      · rw [if_neg hl] at hs; cases hs; exact hid
  | resize i sizes ok =>
    simp only [step] at hs
    cases hi : s.objs[i]? with
    | none => simp only [hi] at hs; cases hs; exact hid
    | some a =>
      simp only [hi] at hs
      by_cases hl : a.alive = true
      · rw [if_pos hl] at hs
        obtain ⟨⟨h, a', e'⟩, hr, hs⟩ := Out.bind_eq_ok.mp hs
        cases hs
        obtain ⟨h1, h2, h3, h4, h5, -⟩ := resize_effect hr
        refine ⟨h1, fun p hp => ?_, fun j p ho => ?_⟩
        · rcases h2 p hp with h6 | ⟨h6, h7⟩
          · exact .inl h6
          · exact .inr (.inr ⟨i, ⟨a, hi, hl, h6, h7⟩, .inr ⟨sizes, ok, rfl⟩⟩)
        · rcases (owns_set hi).mp ho with ⟨-, h6, h7, h8⟩ | ⟨-, ho⟩
          · rcases h5 with ⟨h5, -⟩ | ⟨h5, -⟩
            · exact .inl ⟨i, a, hi, hl, by rw [← h4]; exact h7, by rw [← h5]; exact h8⟩
            · rw [h5] at h8; cases h8; exact .inr (le_refl _)
          · exact .inl ⟨j, ho⟩
      · rw [if_neg hl] at hs; cases hs; exact hid
  | release i =>
    simp only [step] at hs
    cases hi : s.objs[i]? with
    | none => simp only [hi] at hs; cases hs; exact hid
    | some a =>
      simp only [hi] at hs
      by_cases hl : a.alive = true
      · rw [if_pos hl] at hs
        cases hs
        refine ⟨le_refl _, fun _ _ => .inl rfl, fun j p ho => ?_⟩
        rcases (owns_set hi).mp ho with ⟨-, -, h7, -⟩ | ⟨-, ho⟩
        · simp at h7
        · exact .inl ⟨j, ho⟩
      · rw [if_neg hl] at hs; cases hs; exact hid
  | destroy i =>
    simp only [step] at hs
    cases hi : s.objs[i]? with
    | none => simp only [hi] at hs; cases hs; exact hid
    | some a =>
      simp only [hi] at hs
      by_cases hl : a.alive = true
      · rw [if_pos hl] at hs
        obtain ⟨⟨h, a'⟩, hr, hs⟩ := Out.bind_eq_ok.mp hs
        cases hs
        unfold destroy at hr
        by_cases ho : a.owned = true
        · rw [if_pos ho] at hr
          obtain ⟨h1, hd, hr⟩ := Out.bind_eq_ok.mp hr
          cases hr
          obtain ⟨hlen, heff⟩ := deallocate_ok hd
          refine ⟨hlen.ge, fun p hp => ?_, fun j p hj => ?_⟩
          · rcases heff p with h6 | ⟨h6, -⟩
            · exact .inl h6
            · exact .inr (.inr ⟨i, ⟨a, hi, hl, ho, h6⟩, .inl rfl⟩)
          · rcases (owns_set hi).mp hj with ⟨-, h6, -⟩ | ⟨-, hj⟩
            · simp at h6
            · exact .inl ⟨j, hj⟩
        · rw [if_neg ho] at hr
          cases hr
          refine ⟨le_refl _, fun _ _ => .inl rfl, fun j p hj => ?_⟩
          rcases (owns_set hi).mp hj with ⟨-, h6, -⟩ | ⟨-, hj⟩
          · simp at h6
          · exact .inl ⟨j, hj⟩
      · rw [if_neg hl] at hs; cases hs; exact hid
  | access i idx =>
    simp only [step] at hs
    cases hi : s.objs[i]? with
    | none => simp only [hi] at hs; cases hs; exact hid
    | some a =>
      simp only [hi] at hs
      by_cases hl : a.alive = true
      · rw [if_pos hl] at hs
        obtain ⟨u, hr, hs⟩ := Out.bind_eq_ok.mp hs
        cases hs
        exact hid
      · rw [if_neg hl] at hs; cases hs; exact hid
  | callerNew size =>
    cases hs
    refine ⟨by simp [allocate], fun p hp => .inl ?_, fun i p h => .inl ⟨i, h⟩⟩
    simp only [allocate]
    rw [List.getElem?_append_left hp]
  | callerDelete q =>
    obtain ⟨h1, hd, hs⟩ := Out.bind_eq_ok.mp hs
    cases hs
    obtain ⟨hlen, heff⟩ := deallocate_ok hd
    refine ⟨hlen.ge, fun p hp => ?_, fun i p h => .inl ⟨i, h⟩⟩
    rcases heff p with h6 | ⟨h6, -⟩
    · exact .inl h6
    · cases h6; exact .inr (.inl rfl)

/-- The blocks one operation makes the caller responsible for. -/
def stepCallers (s : St) : Op → List Nat
  | .callerNew _ => [s.heap.length]
  | .release i => match s.objs[i]? with
    | some a => a.data.toList
    | none => []
  | _ => []

theorem callers_cons {s s' : St} {op : Op} {e : End} (hs : step s op = .ok (s', e)) (ops : List Op) :
    callers s (op :: ops) = stepCallers s op ++ callers s' ops := by
  simp only [callers, hs]
  cases op <;> rfl

/-- Every live block after an operation has an owner, or belongs to the caller as of now, or had no owner before. -/
theorem step_leak {s s' : St} (h : Inv s) {op : Op} {e : End} (hs : step s op = .ok (s', e)) (hok : Allowed s op) {p : Nat} (hp : Live s' p) :
    (∃ i, Owns s' i p) ∨ p ∈ stepCallers s op ∨ (Live s p ∧ ∀ i, ¬ Owns s i p) := by
  have hid : ∀ s' : St, s'.heap = s.heap → (∀ i p, Owns s i p → ∃ j, Owns s' j p) → Live s' p →
      (∃ i, Owns s' i p) ∨ p ∈ stepCallers s op ∨ (Live s p ∧ ∀ i, ¬ Owns s i p) := by
    intro s' h1 h2 hl
    by_cases ho : ∃ i, Owns s i p
    · obtain ⟨i, hi⟩ := ho
      exact .inl (h2 i p hi)
    · exact .inr (.inr ⟨by simpa [Live, h1] using hl, fun i hi => ho ⟨i, hi⟩⟩)
  have hsame : ∀ {h' : List Block} {i : Nat} {a a' : Obj}, s.objs[i]? = some a → a'.alive = a.alive → a'.owned = a.owned →
      a'.data = a.data → ∀ j q, Owns s j q → ∃ k, Owns ⟨h', s.objs.set i a'⟩ k q := by
    intro h' i a a' hi h1 h2 h3 j q ho
    refine ⟨j, (owns_set hi).mpr ?_⟩
    by_cases hj : j = i
    · subst hj
      obtain ⟨b, hb, h4, h5, h6⟩ := ho
      rw [hi] at hb; cases hb
      exact .inl ⟨rfl, by rw [h1]; exact h4, by rw [h2]; exact h5, by rw [h3]; exact h6⟩
    · exact .inr ⟨hj, ho⟩
  cases op with
  | new0 => cases hs; exact hid _ rfl (fun i p h => ⟨i, owns_append.mpr (.inr h)⟩) hp
  | new sizes ok =>
    cases ok with
    | true =>
      simp only [step, resize_empty_true hok, Out.ok_bind, Out.pure_eq] at hs
      cases hs
      by_cases hq : p = s.heap.length
      · exact .inl ⟨s.objs.length, owns_append.mpr (.inl ⟨rfl, rfl, rfl, by rw [hq]⟩)⟩
      · by_cases ho : ∃ i, Owns s i p
        · obtain ⟨i, hi⟩ := ho
          exact .inl ⟨i, owns_append.mpr (.inr hi)⟩
        · refine .inr (.inr ⟨?_, fun i hi => ho ⟨i, hi⟩⟩)
          obtain ⟨b, hb, hl⟩ := hp
          have hlt := (List.getElem?_eq_some_iff.mp hb).1
          simp at hlt
          rw [List.getElem?_append_left (by omega)] at hb
          exact ⟨b, hb, hl⟩
    | false =>
      simp only [step, resize_empty_false hok, Out.ok_bind, Out.pure_eq] at hs
      cases hs
      exact hid _ rfl (fun i p h => ⟨i, owns_append.mpr (.inr h)⟩) hp
  | wrap sizes q =>
    simp only [step, wrapObj_eq hok, Out.ok_bind, Out.pure_eq] at hs
    cases hs
    exact hid _ rfl (fun i p h => ⟨i, owns_append.mpr (.inr h)⟩) hp
  | move i =>
    simp only [step] at hs
    cases hi : s.objs[i]? with
    | none => simp only [hi] at hs; cases hs; exact hid _ rfl (fun i p h => ⟨i, h⟩) hp
    | some a =>
      simp only [hi] at hs
      by_cases hl : a.alive = true
      · rw [if_pos hl] at hs
        cases hs
        refine hid _ rfl (fun j p ho => ?_) hp
        by_cases hj : j = i
        · subst hj
          obtain ⟨b, hb, h4, h5, h6⟩ := ho
          rw [hi] at hb; cases hb
          exact ⟨_, owns_append (s := ⟨s.heap, s.objs.set j (moveFrom a)⟩) |>.mpr (.inl ⟨rfl, h4, h5, h6⟩)⟩
        · exact ⟨j, owns_append (s := ⟨s.heap, s.objs.set i (moveFrom a)⟩) |>.mpr (.inr ((owns_set hi).mpr (.inr ⟨hj, ho⟩)))⟩
      · rw [if_neg hl] at hs; cases hs; exact hid _ rfl (fun i p h => ⟨i, h⟩) hp
  | resize i sizes ok =>
    simp only [step] at hs
    cases hi : s.objs[i]? with
    | none => simp only [hi] at hs; cases hs; exact hid _ rfl (fun i p h => ⟨i, h⟩) hp
    | some a =>
      simp only [hi] at hs
      by_cases hl : a.alive = true
      · rw [if_pos hl] at hs
        obtain ⟨⟨h', a', e'⟩, hr, hs⟩ := Out.bind_eq_ok.mp hs
        cases hs
        obtain ⟨h1, h2, h3, h4, h5, h6⟩ := resize_effect hr
        rcases h5 with ⟨h5, -⟩ | ⟨h5, h7, h8, h9⟩
        · have : h' = s.heap := h6 hok.2 h5
          subst this
          exact hid _ rfl (hsame hi h3 h4 h5) hp
        · by_cases hq : p = s.heap.length
          · exact .inl ⟨i, (owns_set hi).mpr (.inl ⟨rfl, by rw [h3]; exact hl, h7, by rw [h5, hq]⟩)⟩
          · by_cases ho : ∃ j, Owns s j p
            · obtain ⟨j, hj⟩ := ho
              by_cases hji : j = i
              · subst hji
                obtain ⟨b, hb, -, -, h10⟩ := hj
                rw [hi] at hb; cases hb
                obtain ⟨c, hc, hcl⟩ := h9 p h10
                obtain ⟨c', hc', hcl'⟩ := hp
                rw [hc] at hc'; cases hc'
                rw [hcl] at hcl'; cases hcl'
              · exact .inl ⟨j, (owns_set hi).mpr (.inr ⟨hji, hj⟩)⟩
            · refine .inr (.inr ⟨?_, fun i hi => ho ⟨i, hi⟩⟩)
              obtain ⟨b, hb, hbl⟩ := hp
              have hlt := (List.getElem?_eq_some_iff.mp hb).1
              have hlt' : p < s.heap.length := by simp only [] at hlt; omega
              rcases h2 p hlt' with h10 | ⟨h10, h11⟩
              · exact ⟨b, by rw [← h10]; exact hb, hbl⟩
              · exact absurd ⟨i, a, hi, hl, h10, h11⟩ ho
      · rw [if_neg hl] at hs; cases hs; exact hid _ rfl (fun i p h => ⟨i, h⟩) hp
  | release i =>
    simp only [step] at hs
    cases hi : s.objs[i]? with
    | none => simp only [hi] at hs; cases hs; exact hid _ rfl (fun i p h => ⟨i, h⟩) hp
    | some a =>
      simp only [hi] at hs
      by_cases hl : a.alive = true
      · rw [if_pos hl] at hs
        cases hs
        by_cases ho : ∃ j, Owns s j p
        · obtain ⟨j, hj⟩ := ho
          by_cases hji : j = i
          · subst hji
            obtain ⟨b, hb, -, -, h10⟩ := hj
            rw [hi] at hb; cases hb
            exact .inr (.inl (by simp [stepCallers, hi, h10]))
          · exact .inl ⟨j, (owns_set hi).mpr (.inr ⟨hji, hj⟩)⟩
        · exact .inr (.inr ⟨hp, fun i hi => ho ⟨i, hi⟩⟩)
      · rw [if_neg hl] at hs; cases hs; exact hid _ rfl (fun i p h => ⟨i, h⟩) hp
  | destroy i =>
    simp only [step] at hs
    cases hi : s.objs[i]? with
    | none => simp only [hi] at hs; cases hs; exact hid _ rfl (fun i p h => ⟨i, h⟩) hp
    | some a =>
      simp only [hi] at hs
      by_cases hl : a.alive = true
      · rw [if_pos hl] at hs
        obtain ⟨⟨h', a'⟩, hr, hs⟩ := Out.bind_eq_ok.mp hs
        cases hs
        by_cases ho : ∃ j, Owns s j p
        · obtain ⟨j, hj⟩ := ho
          by_cases hji : j = i
          · exfalso
            subst hji
            obtain ⟨b, hb, -, h9, h10⟩ := hj
            rw [hi] at hb; cases hb
            unfold destroy at hr
            rw [if_pos h9] at hr
            obtain ⟨h1, hd, hr⟩ := Out.bind_eq_ok.mp hr
            cases hr
            rw [h10] at hd
            simp only [deallocate] at hd
            cases hk : s.heap[p]? with
            | none => simp [hk] at hd
            | some b =>
              simp only [hk] at hd
              split_ifs at hd with hl
              cases hd
              obtain ⟨c, hc, hcl⟩ := hp
              simp [(List.getElem?_eq_some_iff.mp hk).1] at hc
              rw [← hc] at hcl
              simp at hcl
          · exact .inl ⟨j, (owns_set hi).mpr (.inr ⟨hji, hj⟩)⟩
        · refine .inr (.inr ⟨?_, fun i hi => ho ⟨i, hi⟩⟩)
          unfold destroy at hr
          by_cases h9 : a.owned = true
          · rw [if_pos h9] at hr
            obtain ⟨h1, hd, hr⟩ := Out.bind_eq_ok.mp hr
            cases hr
            rcases (deallocate_ok hd).2 p with h10 | ⟨h10, -⟩
            · exact (live_of_heap h10).mp hp
            · exact absurd ⟨i, a, hi, hl, h9, h10⟩ ho
          · rw [if_neg h9] at hr; cases hr; exact hp
      · rw [if_neg hl] at hs; cases hs; exact hid _ rfl (fun i p h => ⟨i, h⟩) hp
  | access i idx =>
    simp only [step] at hs
    cases hi : s.objs[i]? with
    | none => simp only [hi] at hs; cases hs; exact hid _ rfl (fun i p h => ⟨i, h⟩) hp
    | some a =>
      simp only [hi] at hs
      by_cases hl : a.alive = true
      · rw [if_pos hl] at hs
        obtain ⟨u, hr, hs⟩ := Out.bind_eq_ok.mp hs
        cases hs
        exact hid _ rfl (fun i p h => ⟨i, h⟩) hp
      · rw [if_neg hl] at hs; cases hs; exact hid _ rfl (fun i p h => ⟨i, h⟩) hp
  | callerNew size =>
    cases hs
    by_cases hq : p = s.heap.length
    · exact .inr (.inl (by simp [stepCallers, hq]))
    · by_cases ho : ∃ i, Owns s i p
      · obtain ⟨i, hi⟩ := ho
        exact .inl ⟨i, hi⟩
      · refine .inr (.inr ⟨?_, fun i hi => ho ⟨i, hi⟩⟩)
        obtain ⟨b, hb, hl⟩ := hp
        have hlt := (List.getElem?_eq_some_iff.mp hb).1
        simp [allocate] at hlt hb
        rw [List.getElem?_append_left (by omega)] at hb
        exact ⟨b, hb, hl⟩
  | callerDelete q =>
    obtain ⟨h1, hd, hs⟩ := Out.bind_eq_ok.mp hs
    cases hs
    by_cases ho : ∃ i, Owns s i p
    · obtain ⟨i, hi⟩ := ho
      exact .inl ⟨i, hi⟩
    · refine .inr (.inr ⟨?_, fun i hi => ho ⟨i, hi⟩⟩)
      rcases (deallocate_ok hd).2 p with h10 | ⟨-, b, -, -, h10⟩
      · exact (live_of_heap h10).mp hp
      · obtain ⟨c, hc, hcl⟩ := hp
        rw [h10] at hc; cases hc; simp at hcl

end HL.Heap
