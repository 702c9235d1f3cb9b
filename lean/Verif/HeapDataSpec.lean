import Verif.Model.HeapData

/-
Arrays as values: the specification for C109.  No heap and no pointers.  An array is either a value of its own, which nothing
else can change, or a view of one of the caller's blocks.
-/

namespace HL.Val

variable {α : Type}

/-- An array as its user sees it. -/
inductive Arr (α : Type)
  /-- moved from or destroyed -/
  | gone
  /-- a value of its own: shape and elements -/
  | own (a : NDArray α)
  /-- a shape laid over block `k` of the caller's -/
  | view (sizes offsets : List Nat) (storage k : Nat)
  deriving DecidableEq, Repr

/-- The arrays in order of creation, and the caller's blocks in order of arrival; `none` once the block is deleted. -/
structure St (α : Type) where
  arrs : List (Arr α)
  blocks : List (Option (List (Option α)))
  deriving DecidableEq, Repr

/-- The array as a value: its own, or what is in the caller's block now. -/
def contents (v : St α) : Arr α → Out (NDArray α)
  | .gone => .ub .useAfterFree
  | .own a => .ok a
  | .view sizes offsets storage k =>
    match v.blocks[k]? with
    | some (some cells) => .ok ⟨sizes, offsets, storage, cells⟩
    | _ => .ub .useAfterFree

/-- Changing the elements: of the array itself, or of the caller's block. -/
def update (v : St α) (i : Nat) (a : NDArray α) : Arr α → St α
  | .gone => v
  | .own _ => ⟨v.arrs.set i (.own a), v.blocks⟩
  | .view _ _ _ k => ⟨v.arrs, v.blocks.set k (some a.data)⟩

/-- One operation. -/
def step (v : St α) (op : Mem.Op α) : Out (St α × Mem.Res α) :=
  match op with
  | .new0 => .ok (⟨v.arrs ++ [.own .empty], v.blocks⟩, .done)
  | .new sizes => do
    let a ← NDArray.new sizes
    pure (⟨v.arrs ++ [.own a], v.blocks⟩, .done)
  | .wrap sizes k => do
    let a : NDArray α ← NDArray.wrap sizes []
    pure (⟨v.arrs ++ [.view a.sizes a.offsets a.storageSize k], v.blocks⟩, .done)
  | .move i =>
    match v.arrs[i]? with
    | some x => .ok (⟨v.arrs.set i .gone ++ [x], v.blocks⟩, .done)
    | none => .ok (v, .done)
  | .resize i sizes =>
    match v.arrs[i]? with
    | some (.own a) => do
      let a ← a.resize sizes
      pure (⟨v.arrs.set i (.own a), v.blocks⟩, .done)
    | some (.view ..) => .ok (v, .notOwned)
    | _ => .ok (v, .done)
  | .release i =>
    match v.arrs[i]? with
    | some (.own a) =>
      .ok (⟨v.arrs.set i (.view a.sizes a.offsets a.storageSize v.blocks.length), v.blocks ++ [some a.data]⟩, .done)
    | _ => .ok (v, .done)
  | .destroy i => .ok (⟨v.arrs.set i .gone, v.blocks⟩, .done)
  | .read i idx =>
    match v.arrs[i]? with
    | some x => do
      let a ← contents v x
      let y ← a.get idx
      pure (v, .value y)
    | none => .ok (v, .done)
  | .write i idx y =>
    match v.arrs[i]? with
    | some x => do
      let a ← contents v x
      let a ← a.set idx y
      pure (update v i a x, .done)
    | none => .ok (v, .done)
  | .assign i y =>
    match v.arrs[i]? with
    | some x => do
      let a ← contents v x
      let a ← a.assign y
      pure (update v i a x, .done)
    | none => .ok (v, .done)
  | .copy i j =>
    match v.arrs[i]?, v.arrs[j]? with
    | some x, some (.own b) => do
      let a ← contents v x
      let b ← NDArray.copy a b
      pure (⟨v.arrs.set j (.own b), v.blocks⟩, .done)
    | some _, some (.view ..) => .ok (v, .notOwned)
    | _, _ => .ok (v, .done)
  | .callerNew size => .ok (⟨v.arrs, v.blocks ++ [some (List.replicate size none)]⟩, .done)
  | .callerRead k o =>
    match v.blocks[k]? with
    | some (some cells) =>
      match cells[o]? with
      | some (some x) => .ok (v, .value x)
      | some none => .ub .uninit
      | none => .ub .oob
    | some none => .ub .useAfterFree
    | none => .ok (v, .done)
  | .callerWrite k o x =>
    match v.blocks[k]? with
    | some (some cells) =>
      if o < cells.length then .ok (⟨v.arrs, v.blocks.set k (some (cells.set o (some x)))⟩, .done) else .ub .oob
    | some none => .ub .useAfterFree
    | none => .ok (v, .done)
  | .callerDelete k =>
    match v.blocks[k]? with
    | some (some _) => .ok (⟨v.arrs, v.blocks.set k none⟩, .done)
    | some none => .ub .doubleFree
    | none => .ok (v, .done)

/-- A program, and how each of its operations ended. -/
def run (v : St α) : List (Mem.Op α) → Out (St α × List (Mem.Res α))
  | [] => .ok (v, [])
  | op :: ops => do
    let (v, r) ← step v op
    let (v, rs) ← run v ops
    pure (v, r :: rs)

/-- The start of a program. -/
def init : St α := ⟨[], []⟩

/-- What a program shows. -/
def outcome (ops : List (Mem.Op α)) : Out (List (Mem.Res α)) := Prod.snd <$> run init ops

/-- Array `i` is there to be used. -/
def Usable (v : St α) (i : Nat) : Prop := ∃ x, v.arrs[i]? = some x ∧ x ≠ .gone

/-- What a program may ask for: nothing of arrays that have been moved from or destroyed (but they can be destroyed), no
pointer it does not have, nothing copied onto itself, no `release` of an array without storage. -/
def Allowed (v : St α) : Mem.Op α → Prop
  | .new0 | .new _ | .destroy _ | .callerNew _ => True
  | .wrap _ k | .callerRead k _ | .callerWrite k _ _ | .callerDelete k => k < v.blocks.length
  | .move i | .resize i _ | .read i _ | .write i _ _ | .assign i _ => Usable v i
  | .release i => Usable v i ∧ ∀ a, v.arrs[i]? = some (.own a) → a.storageSize ≠ 0
  | .copy i j => Usable v i ∧ Usable v j ∧ i ≠ j

/-- A program that asks for nothing it may not, however far it gets. -/
def Proper (v : St α) : List (Mem.Op α) → Prop
  | [] => True
  | op :: ops => Allowed v op ∧ ∀ v' r, step v op = .ok (v', r) → Proper v' ops

end HL.Val
