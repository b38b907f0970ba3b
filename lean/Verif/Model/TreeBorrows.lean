/-!
# Tree Borrows

No function of the repository is modelled here. This is the aliasing model Tree Borrows (Villani, Hostert, Dreyer, Jung: "Tree Borrows", PLDI 2025; the one Miri implements with `-Zmiri-tree-borrows`) for
one allocation: every reference has a tag; the tags form a tree by "is derived from"; each tag has a permission for each byte, and each access changes the permissions of all tags. A raw pointer has the tag of the
reference it was made from. Left out: two-phase borrows.
-/
namespace Varlen.TB

/-- The permission of a tag for a byte. `conflicted`: it was read through another tag while a function argument protects this one. `reservedIM`: a mutable reference to a byte inside an `UnsafeCell`; `cell`: a shared
one. -/
inductive Perm
  | reserved (conflicted : Bool)
  | reservedIM
  | cell
  | active
  | frozen
  | disabled
deriving DecidableEq

/-- The state of one tag at one byte: permission, and whether the byte was accessed through it or a reference derived from it. -/
structure Cell where
  perm : Perm
  acc : Bool
deriving DecidableEq

/-- A tag. -/
structure Tag where
  /-- The tags it is derived from, itself first. -/
  path : List Nat
  /-- `&mut` (or the original pointer) rather than `&`. -/
  uniq : Bool
  /-- It is the argument of a function that has not returned. -/
  prot : Bool
  /-- Ghost: the reference may still be used. -/
  live : Bool
  /-- Ghost: the bytes `[lo, lo + len)` that it is for. For a reference to a variable-length object this is the whole object, although the reference's type has the size of the head. -/
  lo : Nat
  len : Nat
  /-- The bytes at which the reference is one to an `UnsafeCell`. -/
  im : Nat → Bool

/-- No `UnsafeCell`. -/
def noIm : Nat → Bool := fun _ => false

/-- A tag with its state at each byte. -/
structure Node extends Tag where
  cell : Nat → Cell

/-- The tags of an allocation of `size` bytes; the index in the list is the tag. -/
structure Tree where
  size : Nat
  nodes : List Node

/-- The pointer returned by the allocator. -/
def Tree.new (size : Nat) : Tree := ⟨size, [⟨⟨[0], true, false, true, 0, size, noIm⟩, fun _ => ⟨.active, true⟩⟩]⟩

/-- The new permission at a byte that is read or written (`wr`) through this tag or one derived from it (`loc`) or through another one; `none` is undefined behaviour. -/
def Perm.step (wr loc prot : Bool) : Perm → Option Perm
  | .reserved c => match loc, wr with
    | true, false => some (.reserved c)
    | true, true => if c && prot then none else some .active
    | false, false => some (.reserved (c || prot))
    | false, true => some .disabled
  | .reservedIM => match loc, wr with
    | true, true => some .active
    | _, _ => some .reservedIM
  | .cell => some .cell
  | .active => match loc, wr with
    | true, _ => some .active
    | false, false => some (if prot then .disabled else .frozen)
    | false, true => some .disabled
  | .frozen => match loc, wr with
    | true, false => some .frozen
    | true, true => none
    | false, false => some .frozen
    | false, true => some .disabled
  | .disabled => match loc with
    | true => none
    | false => some .disabled

/-- The same with protectors: it is also undefined to disable a protected tag at a byte that was accessed through it. -/
def Cell.step (wr loc prot : Bool) (c : Cell) : Option Cell :=
  match c.perm.step wr loc prot with
  | none => none
  | some p => if prot && c.acc && decide (p = .disabled) && !decide (c.perm = .disabled) then none else some ⟨p, c.acc || loc⟩

/-- What an access through tag `t` with path `P` does to the cell of tag `i` with node `M` at byte `x`. `sel` tells which bytes are accessed and how. With `skip`, the tags derived from `t` do not notice. -/
def Node.cellAfter (P : List Nat) (t : Nat) (skip : Bool) (sel : Nat → Option Bool) (i : Nat) (M : Node) (x : Nat) : Option Cell :=
  match sel x with
  | none => some (M.cell x)
  | some wr => if skip && decide (t ∈ M.path) && !decide (i = t) then some (M.cell x) else (M.cell x).step wr (decide (i ∈ P)) M.prot

/-- An access through tag `t`; `none` if it is undefined behaviour. -/
def Tree.touch (T : Tree) (t : Nat) (skip : Bool) (sel : Nat → Option Bool) : Option Tree :=
  match T.nodes[t]? with
  | none => none
  | some N =>
    if (T.nodes.zipIdx.all fun (M, i) => (List.range T.size).all fun x => (M.cellAfter N.path t skip sel i x).isSome) then
      some { T with nodes := T.nodes.mapIdx fun i M => { M with cell := fun x => if x < T.size then (M.cellAfter N.path t skip sel i x).getD (M.cell x) else M.cell x } }
    else none

/-- Programs that make and use references; `none` is undefined behaviour. -/
def B (α : Type) := Tree → Option (α × Tree)

instance : Monad B where
  pure a := fun T => some (a, T)
  bind x f := fun T => match x T with
    | none => none
    | some (a, T) => f a T

/-- The bytes `[lo, lo + n)`. -/
def range (wr : Bool) (lo n : Nat) (x : Nat) : Option Bool := if lo ≤ x ∧ x < lo + n then some wr else none

/-- Reading or writing `n` bytes at `lo` through `t`. -/
def access (t : Nat) (wr : Bool) (lo n : Nat) : B Unit := fun T =>
  if lo + n ≤ T.size then (T.touch t false (range wr lo n)).map fun T => ((), T) else none

/-- The permission of a new reference at a byte; `im`: the byte is inside an `UnsafeCell`. -/
def newPerm (uniq prot im : Bool) : Perm :=
  if uniq then (if im && !prot then .reservedIM else .reserved false) else if im then .cell else .frozen

/-- A reborrow: `&*t` or `&mut *t` of `n` bytes at `lo`; the new tag. With `prot`, as an argument of a function. It counts as a read of these bytes, except of the inside of an `UnsafeCell` by a shared reference.
`im` tells which bytes are inside an `UnsafeCell`; outside `[lo, lo + n)` it is, for all bytes alike, whether the type contains one. Ghost: the bytes `[elo, elo + elen)` it is for. -/
def retag (t : Nat) (uniq prot : Bool) (im : Nat → Bool) (lo n elo elen : Nat) : B Nat := fun T =>
  match T.nodes[t]? with
  | none => none
  | some N =>
    let c := T.nodes.length
    let M : Node := ⟨⟨c :: N.path, uniq, prot, true, elo, elen, im⟩, fun x => ⟨newPerm uniq prot (im x), false⟩⟩
    if lo + n ≤ T.size then
      (Tree.touch { T with nodes := T.nodes ++ [M] } c false (fun x => if newPerm uniq prot (im x) = .cell then none else range false lo n x)).map fun T => (c, T)
    else none

/-- Changing a node. -/
def update (t : Nat) (f : Node → Node) : B Unit := fun T =>
  match T.nodes[t]? with
  | none => none
  | some N => some ((), { T with nodes := T.nodes.set t (f N) })

/-- Ghost: the reference is not used any more. -/
def kill (t : Nat) : B Unit := update t fun N => { N with live := false }

/-- The function whose argument is `t` returns: an implicit access, invisible to the references derived from `t`, to the bytes accessed through `t` (a write where `t` was written; none inside an `UnsafeCell`); then the protection ends. -/
def release (t : Nat) : B Unit := fun T =>
  match T.nodes[t]? with
  | none => none
  | some N => match T.touch t true (fun x => if (N.cell x).acc && !decide ((N.cell x).perm = .cell) then some (decide ((N.cell x).perm = .active)) else none) with
    | none => none
    | some T => update t (fun N => { N with prot := false }) T

/-- A shared reference passed to a function. -/
def shrArg (t : Nat) (im : Nat → Bool) (lo n elo elen : Nat) : B Nat := retag t false true im lo n elo elen

/-- Return of the function; its argument is gone. -/
def ret (t : Nat) : B Unit := do
  release t
  kill t

/-- A `Pin<&mut T>` passed to a function. The compiler does not reborrow `&mut T` if `T` is not `Unpin`; the types of the library are `Unpin` or not depending on their fields and type arguments, so both cases
(`pin`) are considered. For a protected `&mut` it makes no difference what is inside an `UnsafeCell`. -/
def mutArg (pin : Bool) (t lo n elo elen : Nat) : B Nat := if pin then retag t true true noIm lo n elo elen else pure t

def mutRet (pin : Bool) (t : Nat) : B Unit := if pin then ret t else pure ()

end Varlen.TB
