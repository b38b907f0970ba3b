import Verif.Model.Dispatch
import Verif.Proofs.LibType
import Verif.Proofs.Newtype
import Verif.Props.Demo
/-! # C75: the impls printed for newtypes, whatever methods the inner types have -/
namespace Varlen
variable {w : Nat}

/-- The printed `unsafe impl VarLen` keeps the contract of the trait exactly if the inner type has no method `calculate_layout` of its own, or one that does what the method of the trait does. The property claims it keeps the
contract for every inner type that does; see `C75_own_layout`. -/
theorem C75_newtype_partial {T : VarLen w} (hT : Lawful T) (own : Option (Ptr → M (Layout w))) :
    Lawful (NewtypeD T own) ↔ ∀ f, own = some f → ∀ s p v l, Valid T s p v l → f p s = .ok l s := by
  constructor
  · intro h f hf s p v l hv
    subst hf
    exact h.calc_ok s p v l ⟨hv.acc, hv.aligned, hv.rep, trivial⟩
  · intro h
    have hn := Newtype.lawful hT
    exact ⟨hn.align_pow2, hn.head_align, hn.rep_ext, hn.rep_unique, hn.head_le, fun s p v l hv => by
      cases own with
      | none => exact hT.calc_ok s p v l (NewtypeInv.valid_inner (inv := fun _ => True) ⟨hv.acc, hv.aligned, hv.rep⟩)
      | some f => exact h f rfl s p v l (NewtypeInv.valid_inner (inv := fun _ => True) ⟨hv.acc, hv.aligned, hv.rep⟩),
      fun s p v l hv => hn.vdrop_ok s p v l ⟨hv.acc, hv.aligned, hv.rep⟩, hn.no_vdrop⟩

/-- The printed `unsafe impl Initializer` keeps the contract of the trait if the inner initializer has no method `initialize` of its own, or one that does the same on the storage that it may be called with. -/
theorem C75_init_partial {T : VarLen w} {I : Init w} (hI : InitLawful T I) {own : Option (Ptr → Layout w → M Unit)}
    (h : ∀ f, own = some f → ∀ s p l, I.pre s → I.lay = some l → Acc s p l.size.toNat → Aligned s p T.ALIGN.toNat → ¬ I.fp p.blk → f p l s = I.initTo p l s) :
    InitLawful T (Newtype.initD I own) := by
  cases own with
  | none => exact Newtype.wrap_lawful hI
  | some f =>
    exact ⟨hI.owns_mods, hI.mods_fp, hI.fp_exists, hI.stable, hI.calc_ok, hI.calc_panic, hI.bad_lay, hI.drop_ok,
      fun s p l v h1 h2 h3 h4 h5 h6 => by
        obtain ⟨s', e, r⟩ := hI.init_ok s p l v h1 h2 h3 h4 h5 h6
        exact ⟨s', (h f rfl s p l h1 h2 h4 h5 h6).trans e, r⟩,
      fun s p l h1 h2 h3 h4 h5 h6 => by
        obtain ⟨m, s', e, r⟩ := hI.init_panic s p l h1 h2 h3 h4 h5 h6
        exact ⟨m, s', (h f rfl s p l h1 h2 h4 h5 h6).trans e, r⟩⟩

namespace Demo
/-- `fn calculate_layout(&self) -> s::VarLenLayout`, a safe method that returns the layout of some other object: one with three elements in the last field. -/
def otherLayout : Ptr → M (Layout 64) := fun _ => pure (.fields 40 [(8, .array 4 2 12), (20, .len 3), (24, .array 4 3 16)])

/-- It is the layout of an object of the type. -/
example : (sInit 7 3 [1, 2] [10, 11, 12] [5, 6, 7]).lay = some (.fields 40 [(8, .array 4 2 12), (20, .len 3), (24, .array 4 3 16)]) := by rfl

/-- `let b = Owned::new_in(…); drop(b)` -/
def ownedOnce (T : VarLen 64) (I : Init 64) : M Unit := do
  let p ← Owned.newIn alloc T I
  Owned.drop T p

/-- `fn initialize(self, _: NonNull<T>, _: L) {}`, a safe method that drops its arguments. -/
def noInit (I : Init 64) : Ptr → Layout 64 → M Unit := fun _ _ => I.dropI
end Demo

open Demo in
/-- The claim is false for inner types with methods of these names: safe user code (the method returns the layout of another object) and a newtype printed by the macro; making an object in an arena and dropping it is undefined:
the destructor goes beyond the object. -/
theorem C75_own_layout : Lawful S ∧ InitLawful S (sInit 7 3 [1, 2] [10, 11, 12] [5]) ∧ ¬ Lawful (NewtypeD S (some otherLayout)) ∧
    ubOf (ownedOnce (NewtypeD S (some otherLayout)) (Newtype.init (sInit 7 3 [1, 2] [10, 11, 12] [5])) st0) = some .outOfBounds ∧
    isOk (ownedOnce (NewtypeD S none) (Newtype.init (sInit 7 3 [1, 2] [10, 11, 12] [5])) st0) = true := by
  refine ⟨S_lib.lawful, (sInit_lib ..).lib.2, fun h => ?_, by decide +kernel, by decide +kernel⟩
  have := (C75_newtype_partial S_lib.lawful _).1 h _ rfl _ _ _ _ sSt_valid
  simp only [otherLayout, pure_apply, Res.ok.injEq, and_true] at this
  exact absurd (congrArg (fun l => l.size.toNat) this) (by decide)

open Demo in
/-- The same for initializers: a safe method `initialize` that does nothing is called in place of the initializer's. The object is never initialized, and dropping it is undefined. -/
theorem C75_own_initialize : InitLawful S (sInit 7 3 [1, 2] [10, 11, 12] [5]) ∧
    ubOf (ownedOnce S (Newtype.initD (sInit 7 3 [1, 2] [10, 11, 12] [5]) (some (noInit (sInit 7 3 [1, 2] [10, 11, 12] [5])))) st0) = some .invalidValue ∧
    isOk (ownedOnce S (Newtype.initD (sInit 7 3 [1, 2] [10, 11, 12] [5]) none) st0) = true :=
  ⟨(sInit_lib ..).lib.2, by decide +kernel, by decide +kernel⟩

/-- A type with a method of the name that agrees with the trait's: the printed impl keeps the contract. -/
example : Lawful (NewtypeD Demo.S (some Demo.S.calculateLayout)) :=
  (C75_newtype_partial Demo.S_lib.lawful _).2 fun f hf s p v l hv => by
    cases hf
    exact Demo.S_lib.lawful.calc_ok s p v l hv

end Varlen
