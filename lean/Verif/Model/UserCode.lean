import Verif.Model.VBox
/-!
# Array initializers whose user code has effects (varlen/src/array_init.rs, varlen/src/lib.rs:750-767)

In Model/ArrayInit.lean and Model/Traits.lean the closures, iterators and `Clone` impls that the user supplies are functions: they return values or panic, and do nothing to memory. Here
they are programs, which may read and write memory, allocate, free, log, and use this library themselves. The library's code around them is the same.

The ghost fields that give the values and the destructor effects (`vals`, `owes`, `left`, `lost`) mean nothing here: what such an initializer does depends on memory and on time. Its
contract is in Spec/UserCode.lean.
-/
namespace Varlen.Eff
variable {w : Nat}

/-- User-supplied: a `FnMut(usize) -> R` closure with captured state `τ`. A call gives the value (`none`: it panicked) and the new captured state; `drop` is the closure's drop glue. -/
structure Closure (τ : Type) where
  call : τ → Nat → M (Option Img × τ)
  drop : τ → M Unit

/-- The loop of `FillSequentially::initialize` (varlen/src/array_init.rs:156-164): `for (i, slot) in dst.iter_mut().enumerate() { slot.write(self.0(i)) }`. The closure is dropped at the
end, and by a panic. -/
def fillLoop {τ : Type} (R : RTy) (f : Closure τ) : τ → Ptr → Nat → Nat → M Unit
  | t, _, _, 0 => f.drop t
  | t, p, i, n + 1 => do
    match ← f.call t i with
    | (none, t') => onUnwind (panicM .user) (f.drop t')
    | (some img, t') => do
      writeVal R p img
      fillLoop R f t' (p.add R.size) (i + 1) n

/-- `FillSequentially(f)` (varlen/src/array_init.rs:156-164). -/
def FillSequentially {τ : Type} (R : RTy) (f : Closure τ) (t : τ) : ArrInit where
  run := fun dst => fillLoop R f t dst.ptr 0 dst.len
  dropI := f.drop t
  pre := fun _ => True
  fp := fun _ => False
  vals := fun _ => none
  owes := []
  left := fun _ => []
  lost := fun _ => []

/-- `FillWithDefault` (varlen/src/array_init.rs:175-181): `FillSequentially(|_| Default::default())`; `dflt` is `R::default` (`none`: it panicked). -/
def FillWithDefault (R : RTy) (dflt : M (Option Img)) : ArrInit :=
  FillSequentially R { call := fun (_ : Unit) _ => do { let r ← dflt; pure (r, ()) }, drop := fun _ => pure () } ()

/-- User-supplied: an iterator with state `τ`. A call of `next` gives its outcome and the new state; `drop` is the iterator's drop glue. -/
structure IterFn (τ : Type) where
  next : τ → M (Next × τ)
  drop : τ → M Unit

/-- The loop of `FromIterPrefix::initialize` (varlen/src/array_init.rs:119-131). The rest of the iterator is dropped at the end, and by a panic. -/
def iterLoop {τ : Type} (R : RTy) (it : IterFn τ) : τ → Ptr → Nat → M Unit
  | t, _, 0 => it.drop t
  | t, p, n + 1 => do
    match ← it.next t with
    | (.panic, t') => onUnwind (panicM .user) (it.drop t')
    | (.done, t') => onUnwind (panicM .iterEnded) (it.drop t')
    | (.yield img, t') => do
      writeVal R p img
      iterLoop R it t' (p.add R.size) n

/-- `FromIterPrefix(it)` (varlen/src/array_init.rs:119-131). -/
def FromIterPrefix {τ : Type} (R : RTy) (it : IterFn τ) (t : τ) : ArrInit where
  run := fun dst => iterLoop R it t dst.ptr dst.len
  dropI := it.drop t
  pre := fun _ => True
  fp := fun _ => False
  vals := fun _ => none
  owes := []
  left := fun _ => []
  lost := fun _ => []

/-- User-supplied: `R::clone`, given the value behind the reference; `none`: it panicked. -/
abbrev CloneFn := Img → M (Option Img)

/-- The loop of `CloneFrom::initialize` (varlen/src/array_init.rs:239-248). -/
def cloneLoop (R : RTy) (c : CloneFn) : Ptr → Ptr → Nat → M Unit
  | _, _, 0 => pure ()
  | src, dst, n + 1 => do
    let a ← readVal R src
    match ← c a with
    | none => panicM .user
    | some b => do
      writeVal R dst b
      cloneLoop R c (src.add R.size) (dst.add R.size) n

/-- `CloneFrom(&src[..])` (varlen/src/array_init.rs:239-248); `xs` are the source's values. -/
def CloneFrom (R : RTy) (c : CloneFn) (src : Ptr) (xs : List Img) : ArrInit where
  run := fun dst =>
    if xs.length ≠ dst.len then panicM .lengthMismatch
    else cloneLoop R c src dst.ptr xs.length
  dropI := pure ()
  pre := fun s => SliceHas R s src xs
  fp := fun b => b = src.blk
  vals := fun _ => none
  owes := []
  left := fun _ => []
  lost := fun _ => []

/-- `FixedLenCloner` (varlen/src/lib.rs:750-767): clones the `R` at `src`, whose value is `img`. -/
def FixedLen.cloner (w : Nat) (R : RTy) (c : CloneFn) (src : Ptr) (img : Img) : Init w where
  cautious := pure (some (.fixed (R.sizeOf w)))
  initTo := fun p _ => do
    let a ← readVal R src
    match ← c a with
    | none => panicM .user
    | some b => writeVal R p b
  dropI := pure ()
  pre := fun s => Valid (Varlen.FixedLen w R) s src (.leaf img) (.fixed (R.sizeOf w)) ∧ s.blk src.blk ≠ none
  fp := fun b => b = src.blk
  mods := fun _ => False
  owns := fun _ => False
  lay := some (.fixed (R.sizeOf w))
  val := none
  owes := []
  left := []
  lost := []

end Varlen.Eff
