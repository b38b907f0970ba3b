import Verif.Model.Array
/-!
# `new_array` (varlen/src/array_init.rs:30-58, 283-289)
-/
namespace Varlen

/-- `new_array::<R, N>(init)` (varlen/src/array_init.rs:48-58). The local `data: [MaybeUninit<R>; N]` is a block of `N * size_of::<R>()` uninitialised bytes
(`HasUninit::UNINIT`, :30-36) at the address `base` that the compiler has chosen for it; it dies when the function is left, by return or unwinding. Its slots are `MaybeUninit`s, so that
unwinding runs no destructor for them. `transmute_workaround` (:284-289) compares the layouts of `[MaybeUninit<R>; N]` and `[R; N]`, which is size and alignment of the same type
(`MaybeUninit<R>` has the layout of `R`, a guarantee of the standard library), reads the `N` values out bytewise (`transmute_copy`) and forgets the source. -/
def newArray (base : Nat) (R : RTy) (N : Nat) (I : ArrInit) : M (List Img) := do
  let s ← getS
  let data : Ptr := ⟨s.next, 0⟩
  setS (s.push ⟨base, N * R.size, R.align, true, fun _ => none⟩)
  onUnwind (I.run ⟨data, N⟩) (do setS ((← getS).free data.blk))
  let xs ← readElems R data N
  setS ((← getS).free data.blk)
  pure xs

end Varlen
