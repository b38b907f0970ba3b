import Verif.Model.Struct
/-! # Specification: where the tail fields of an object must be -/
namespace Varlen
variable {w : Nat}

/-- `o` is the first multiple of `a` at or after `n`. -/
def NextAligned (n a o : Nat) : Prop := a ∣ o ∧ n ≤ o ∧ ∀ m, a ∣ m → n ≤ m → o ≤ m

/-- A tail field: byte offset from the start of the object, alignment, size in bytes. -/
structure TailField where
  off : Nat
  align : Nat
  size : Nat
deriving DecidableEq, Repr

/-- The tail fields are packed from position `cur` to `fin`: each one starts at the first suitably aligned position at or after the end of the
previous one. -/
inductive PackedFrom : Nat → List TailField → Nat → Prop
  | nil (cur : Nat) : PackedFrom cur [] cur
  | cons {cur fin : Nat} {f : TailField} {fs : List TailField} : NextAligned cur f.align f.off → PackedFrom (f.off + f.size) fs fin →
      PackedFrom cur (f :: fs) fin

/-- The tail fields described by a layout value: the offsets are those stored in the layout, the sizes those of the fields' own layouts. -/
def tailFields : List (Fld w) → List (BitVec w × Layout w) → List TailField
  | .normal _ _ :: fs, ls => tailFields fs ls
  | .length _ _ :: fs, ls => tailFields fs ls
  | .varlen T :: fs, (o, l) :: ls => ⟨o.toNat, T.ALIGN.toNat, l.size.toNat⟩ :: tailFields fs ls
  | .array R _ :: fs, (o, .len n) :: ls => ⟨o.toNat, R.align, n.toNat * R.size⟩ :: tailFields fs ls
  | _, _ => []

/-- Is the field stored in the tail? -/
def Fld.isTail : Fld w → Bool
  | .varlen _ => true
  | .array _ _ => true
  | _ => false

/-- Alignment and size of the tail fields that field initializers ask for, given the values of the length-controlling fields; `none` if one of the
field initializers itself has no layout, or a length expression no value. -/
def requested (lens : List Img) : List (FI w) → Option (List (Nat × Nat))
  | [] => some []
  | .normal _ _ _ :: fs => requested lens fs
  | .length _ _ _ :: fs => requested lens fs
  | .varlen T I :: fs => do
    let l ← I.lay
    let r ← requested lens fs
    some ((T.ALIGN.toNat, l.size.toNat) :: r)
  | .array R len _ :: fs => do
    let r ← requested lens fs
    if len.defd lens then some ((R.align, (len lens).toNat * R.size) :: r) else none

/-- No layout computation and no length expression of these fields panics. -/
def Calm (lens : List Img) (fis : List (FI w)) : Prop :=
  ∀ f ∈ fis, match f with
    | .varlen _ I => ∀ s, I.pre s → ∃ l, I.cautious s = .ok l s
    | .array _ len _ => len.defd lens = true
    | _ => True

/-- These fields can be laid out from position `start` on, and then end at `fin`, which fits `usize`. -/
def FieldsEnd (lens : List Img) (start : Nat) (fis : List (FI w)) (fin : Nat) : Prop :=
  ∃ r fs, requested lens fis = some r ∧ PackedFrom start fs fin ∧ fs.map (fun f => (f.align, f.size)) = r ∧ fin < 2 ^ w

end Varlen
