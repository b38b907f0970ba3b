import Verif.Model.Paths
import Verif.Spec.Controls
import Verif.Spec.Access
/-! # Specification: the parts of a value -/
namespace Varlen
variable {w : Nat}

/-- The part of a value that an accessor is for. -/
def V.part : V → Sel → Option V
  | v, .val => some v
  | v, .slice => some v
  | v, .inner => some v
  | .node vs, .fld i => vs[i]?
  | .arr xs, .elem i => xs[i]?.map .leaf
  | _, _ => none

/-- The part at the end of a chain of accessors. -/
def V.sub : V → List Sel → Option V
  | v, [] => some v
  | v, c :: π => (v.part c).bind fun v' => v'.sub π

/-- The bytes of an ordinary value. -/
def V.leafOr : V → Img → Img
  | .leaf a, _ => a
  | _, b => b

/-- Some step of the chain indexes an array beyond its end. -/
def V.OutOfBounds (v : V) (π : List Sel) : Prop := ∃ (π1 : List Sel) (i : Nat) (π2 : List Sel) (xs : List Img), π = π1 ++ .elem i :: π2 ∧ v.sub π1 = some (.arr xs) ∧ xs.length ≤ i

/-- The value with that part replaced by `x`. -/
def V.put : V → List Sel → V → V
  | _, [], x => x
  | v, .val :: π, x => v.put π x
  | v, .slice :: π, x => v.put π x
  | v, .inner :: π, x => v.put π x
  | .node vs, .fld i :: π, x => .node (vs.modify i fun v => v.put π x)
  | .arr xs, .elem i :: π, x => .arr (xs.modify i fun a => (V.put (.leaf a) π x).leafOr a)
  | v, _, _ => v

/-- The type at the end of a chain of accessors, if the chain type-checks; with `m`, on mutable references. -/
def Kind.at (m : Bool) : Kind w → List Sel → Option (Kind w)
  | k, [] => some k
  | k, c :: π => match k.sel c with
    | some (k', b) => if m && !b then none else k'.at m π
    | none => none

/-- The rules by which chains of accessors type-check, as a user knows them. On mutable references (`m`), everything that can be read can also be changed, except a string's bytes (there is only
`&mut str`) and a struct's length fields. -/
inductive Chain (m : Bool) : Kind w → List Sel → Kind w → Prop
  | here (k : Kind w) : Chain m k [] k
  | fixedLen {P : Plain} {π : List Sel} {k : Kind w} : Chain m (.val P) π k → Chain m (.obj (.fixedLen P)) (.val :: π) k
  | array {P : Plain} {L : LenTy} {π : List Sel} {k : Kind w} : Chain m (.slice P) π k → Chain m (.obj (.array P L)) (.slice :: π) k
  | str {L : LenTy} {π : List Sel} {k : Kind w} : m = false → Chain m (.slice u8Plain) π k → Chain m (.obj (.str L)) (.slice :: π) k
  | newtype {T : Ty w} {π : List Sel} {k : Kind w} : Chain m (.obj T) π k → Chain m (.obj (.newtype T)) (.inner :: π) k
  | tuple {Ts : List (Ty w)} {i : Nat} {T : Ty w} {π : List Sel} {k : Kind w} : Ts[i]? = some T → Chain m (.obj T) π k → Chain m (.obj (.tuple Ts)) (.fld i :: π) k
  | normal {hs ha : Nat} {fs : List (TyFld w)} {i : Nat} {P : Plain} {off : Nat} {π : List Sel} {k : Kind w} :
      fs[i]? = some (.normal P off) → Chain m (.val P) π k → Chain m (.obj (.struct hs ha fs)) (.fld i :: π) k
  | length {hs ha : Nat} {fs : List (TyFld w)} {i : Nat} {P : Plain} {off : Nat} {π : List Sel} {k : Kind w} :
      m = false → fs[i]? = some (.length P off) → Chain m (.val P) π k → Chain m (.obj (.struct hs ha fs)) (.fld i :: π) k
  | varlen {hs ha : Nat} {fs : List (TyFld w)} {i : Nat} {T : Ty w} {π : List Sel} {k : Kind w} :
      fs[i]? = some (.varlen T) → Chain m (.obj T) π k → Chain m (.obj (.struct hs ha fs)) (.fld i :: π) k
  | tail {hs ha : Nat} {fs : List (TyFld w)} {i : Nat} {P : Plain} {len : LenFn w} {π : List Sel} {k : Kind w} :
      fs[i]? = some (.array P len) → Chain m (.slice P) π k → Chain m (.obj (.struct hs ha fs)) (.fld i :: π) k
  | elem {P : Plain} {i : Nat} {π : List Sel} {k : Kind w} : Chain m (.val P) π k → Chain m (.slice P) (.elem i :: π) k

/-- What a reference shows: a valid object, a value that can be read, a slice whose elements can be. The shape of an object is its layout, that of a slice its length. -/
def Kind.Shows (s : St) (k : Kind w) (r : FRef) (v : V) (sh : Layout w) : Prop :=
  match k, r with
  | .obj T, .field q => Valid T.sem s q v sh
  | .val P, .val q => Valid (FixedLen w P.ty) s q v sh
  | .slice P, .slice sl => ∃ xs n, v = .arr xs ∧ sh = .len n ∧ n.toNat = sl.len ∧ Acc s sl.ptr (sl.len * P.ty.size) ∧ Aligned s sl.ptr P.ty.align ∧
      elemsV (viewAt s sl.ptr) 0 P.ty.size sl.len = xs ∧ ∀ x ∈ xs, P.ty.valid x = true
  | _, _ => False

/-- The number of bytes a reference is for. -/
def Kind.bytes : Kind w → Layout w → Nat
  | .obj _, sh => sh.size.toNat
  | .val P, _ => P.ty.size
  | .slice P, .len n => n.toNat * P.ty.size
  | .slice _, _ => 0

/-- The destructor effects of what a reference is to. -/
def Kind.owed : Kind w → V → List Event
  | .obj T, v => T.sem.drops v
  | .val P, .leaf x => P.ty.drops x
  | .slice P, .arr xs => xs.flatMap P.ty.drops
  | _, _ => []

/-- `n` bytes at `q` lie within `m` bytes at `p`. -/
def Within (q : Ptr) (n : Nat) (p : Ptr) (m : Nat) : Prop := q.blk = p.blk ∧ p.off ≤ q.off ∧ q.off + n ≤ p.off + m

/-- `n` bytes at `q` and `m` bytes at `p` do not overlap. -/
def NoOverlap (q : Ptr) (n : Nat) (p : Ptr) (m : Nat) : Prop := n = 0 ∨ m = 0 ∨ q.blk ≠ p.blk ∨ q.off + n ≤ p.off ∨ p.off + m ≤ q.off

/-- The two chains part at some point: to different fields, or different elements of a slice. -/
inductive Diverge : List Sel → List Sel → Prop
  | fld {i j : Nat} {π π' : List Sel} : i ≠ j → Diverge (.fld i :: π) (.fld j :: π')
  | elem {i j : Nat} {π π' : List Sel} : i ≠ j → Diverge (.elem i :: π) (.elem j :: π')
  | cons {c : Sel} {π π' : List Sel} : Diverge π π' → Diverge (c :: π) (c :: π')

end Varlen
