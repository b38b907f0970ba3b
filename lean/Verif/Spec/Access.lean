import Verif.Model.Struct
/-! # Specification: what is seen through the references of a generated `Refs` / `Muts` struct -/
namespace Varlen
variable {w : Nat}

/-- Number of bytes of a field of this shape (its own layout; the length for array fields). -/
def Fld.extent : Fld w → Layout w → Nat
  | .normal R _, _ => R.size
  | .length R _, _ => R.size
  | .varlen _, l => l.size.toNat
  | .array R _, .len n => n.toNat * R.size
  | .array _ _, _ => 0

/-- Through the reference `r` of a `Refs`/`Muts` struct one sees value `v` of a field of kind `f`; `sh` is the field's shape. -/
def Sees (f : Fld w) (s : St) (r : FRef) (v : V) (sh : Layout w) : Prop :=
  match f, r with
  | .normal R _, .val q => Valid (FixedLen w R) s q v sh
  | .length R _, .val q => Valid (FixedLen w R) s q v sh
  | .varlen T, .field q => Valid T s q v sh
  | .array R _, .slice sl => ∃ xs n, v = .arr xs ∧ sh = .len n ∧ n.toNat = sl.len ∧ Acc s sl.ptr (sl.len * R.size) ∧
      Aligned s sl.ptr R.align ∧ elemsV (viewAt s sl.ptr) 0 R.size sl.len = xs ∧ ∀ x ∈ xs, R.valid x = true
  | _, _ => False

/-- The address a reference points to. -/
def FRef.ptr : FRef → Ptr
  | .val q => q
  | .field q => q
  | .slice sl => sl.ptr

/-- The field of an object constructed by `fi` holds what `fi` describes, when accessed through reference `r`: reading a header field gives the literal; a `#[varlen]` field
is a valid object with the initializer's value; reading all elements of a `#[varlen_array]` slice gives what the array initializer produces for the length computed from the
`#[controls_layout]` literals `lens`. -/
def Holds (lens : List Img) (s : St) : FI w → FRef → Prop
  | .normal R _ img, .val q => readVal R q s = .ok img s
  | .length R _ img, .val q => readVal R q s = .ok img s
  | .varlen T I, .field q => ∃ v l, I.val = some v ∧ Valid T s q v l
  | .array R len I, .slice sl => ∃ xs, sl.len = (len lens).toNat ∧ I.vals sl.len = some xs ∧ Slice.read R sl s = .ok xs s
  | _, _ => False

/-- `rs` are the references that `refs()`/`muts()` of a struct or tuple with fields `fs` at `p` give, `vs` the values of the fields and `shapes` their shapes. -/
structure Access (T : VarLen w) (fs : List (Fld w)) (s : St) (p : Ptr) (vs : List V) (l : Layout w) (rs : List FRef) (shapes : List (Layout w)) : Prop where
  /-- One reference per field, in declaration order. -/
  rlen : rs.length = fs.length
  vlen : vs.length = fs.length
  slen : shapes.length = fs.length
  /-- Each shows the value of its field. -/
  sees : ∀ (i : Nat) f r v sh, fs[i]? = some f → rs[i]? = some r → vs[i]? = some v → shapes[i]? = some sh → Sees f s r v sh
  /-- Each lies inside the object. -/
  inside : ∀ (i : Nat) f r sh, fs[i]? = some f → rs[i]? = some r → shapes[i]? = some sh →
    r.ptr.blk = p.blk ∧ p.off ≤ r.ptr.off ∧ r.ptr.off + f.extent sh ≤ p.off + l.size.toNat
  /-- They are to disjoint memory. -/
  disj : ∀ (i j : Nat) f f' r r' sh sh', i ≠ j → fs[i]? = some f → fs[j]? = some f' → rs[i]? = some r → rs[j]? = some r' → shapes[i]? = some sh →
    shapes[j]? = some sh' → f.extent sh = 0 ∨ f'.extent sh' = 0 ∨ r.ptr.off + f.extent sh ≤ r'.ptr.off ∨ r'.ptr.off + f'.extent sh' ≤ r.ptr.off
  /-- Changing what one mutable reference refers to (only those bytes, and keeping its shape) changes exactly that field: the whole object stays valid with the same
  layout, and every other reference shows what it showed before. -/
  write : ∀ (i : Nat) f r sh v' s', fs[i]? = some f → rs[i]? = some r → shapes[i]? = some sh → f.mutable = true →
    Touch s s' r.ptr (f.extent sh) (fun _ => False) → Sees f s' r v' sh →
    Valid T s' p (.node (vs.set i v')) l ∧ ∀ (j : Nat) f' r' v'' sh', j ≠ i → fs[j]? = some f' → rs[j]? = some r' → vs[j]? = some v'' → shapes[j]? = some sh' →
      Sees f' s' r' v'' sh'

end Varlen
