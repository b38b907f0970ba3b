import Verif.Model.NewArray
import Verif.Props.MacroExamples
/-!
# The examples in the documentation, run through the model

The code cannot be run here, so the results that its documentation asserts are the only observations of it. Each example of the documentation is written as a program of the model that panics if an assertion fails; the kernel
runs it. (Tests of the model, not proofs of properties.) 64-bit target.
-/
namespace Varlen.Docs
open Demo

/-- `assert!(b)` -/
def check (b : Bool) : M Unit := if b then pure () else panicM .assertFailed

/-- The bytes of a string literal, somewhere in memory, and their address. -/
def static (bytes : List Img) (size align : Nat) : M Ptr := fun s =>
  .ok ⟨s.next, 0⟩ (s.push ⟨4096 * s.blocks.length + 4096, size * bytes.length, align, true, fun i => (bytes.flatten[i]?).join⟩)

/-- `Str::<L>::try_copy(text).unwrap()` -/
def str (L : LenTy) (text : String) : M (Init 64) := do
  let src ← static (strBytes text) 1 1
  match Str.tryCopy 64 L src text with
  | some I => pure I
  | none => panicM .unwrapNone

/-- `Array::<R, L>::try_copy(&[…]).unwrap()` -/
def arr (R : RTy) (L : LenTy) (xs : List Nat) : M (Init 64) := do
  let ys := xs.map (encLE R.size)
  let src ← static ys R.size R.align
  match Array.tryCopy 64 R L src ys with
  | some I => pure I
  | none => panicM .unwrapNone

/-- `&p[..]`, for an array of integers -/
def elems (R : RTy) (L : LenTy) (p : Ptr) : M (List Nat) := do
  let sl ← Array.deref 64 R L p
  let xs ← sl.read R
  pure (xs.map decLE)

/-- `&p[..] == text` -/
def reads (L : LenTy) (p : Ptr) (text : String) : M Unit := do
  let xs ← elems u8Ty L p
  check (xs == (strBytes text).map decLE)

/-- `p.mut_slice().make_ascii_uppercase()`, given the result -/
def become (L : LenTy) (p : Ptr) (text : String) : M Unit := do
  let sl ← Array.deref 64 u8Ty L p
  moveLoop u8Ty sl.ptr (strBytes text)

/-- `p.calculate_layout().size()` -/
def sizeOf (T : VarLen 64) (p : Ptr) : M Nat := do
  let l ← T.calculateLayout p
  pure l.size.toNat

/-- `u32`, `u64` -/
def lenU32 : LenTy := ⟨4, 4, false⟩
def u16Ty := Macro.u16Ty
def u64Ty := lenUsize.ty

/-- The program runs to the end. -/
abbrev Passes (x : M Unit) : Prop := isOk (x st0) = true

/-! ## array.rs -/

/-- varlen/src/array.rs:24-29, 177-179 -/
example : Passes (do
    let p ← VBox.new alloc (Array 64 u8Ty lenUsize) (← arr u8Ty lenUsize [1, 2, 3])
    check ((← elems u8Ty lenUsize p) == [1, 2, 3])
    check ((← sizeOf (Array 64 u8Ty lenUsize) p) == 8 + 3)
    VBox.drop (Array 64 u8Ty lenUsize) p) := by decide +kernel

/-- varlen/src/array.rs:67-71, 225-229 -/
example : Passes (do
    let p ← VBox.new alloc (Array 64 u16Ty lenUsize) (← arr u16Ty lenUsize [1, 2, 3])
    check ((← elems u16Ty lenUsize p) == [1, 2, 3])
    (← Array.deref 64 u16Ty lenUsize p).set u16Ty 2 (encLE 2 5)
    check ((← elems u16Ty lenUsize p) == [1, 2, 5])) := by decide +kernel

/-- varlen/src/array.rs:82-87 -/
example : Passes (do
    let p ← VBox.new alloc (Array 64 u16Ty lenU8) (← arr u16Ty lenU8 [1, 2, 3])
    check ((← elems u16Ty lenU8 p) == [1, 2, 3])
    check (Array.tryCopy 64 u16Ty lenU8 ⟨1, 0⟩ (List.replicate 257 (encLE 2 1))).isNone) := by decide +kernel

/-- varlen/src/array.rs:95-98, 111-114, 248-254 -/
example : Passes (do
    let p ← VBox.new alloc (Array 64 u8Ty lenU8) (← arr u8Ty lenU8 [1, 2, 3])
    check ((← elems u8Ty lenU8 p) == [1, 2, 3])
    check ((← sizeOf (Array 64 u8Ty lenU8) p) == 1 + 3)
    check (Array.tryCopy 64 u8Ty lenU8 ⟨1, 0⟩ (List.replicate 257 (encLE 1 1))).isNone
    check (Array.tryCloneFromSlice 64 u8Ty lenU8 some ⟨1, 0⟩ (List.replicate 257 (encLE 1 1))).isNone) := by decide +kernel

/-- varlen/src/array.rs:212-215 -/
example : Passes (do
    let p ← VBox.new alloc (Array 64 u8Ty lenU16) (← arr u8Ty lenU16 [1, 2, 3])
    check ((← Array.lenShort lenU16 p) == encLE 2 3)
    check ((← Array.deref 64 u8Ty lenU16 p).len == 3)) := by decide +kernel

/-- varlen/src/array.rs:342-345, array_init.rs:24-25 -/
example : Passes (do
    let p ← VBox.new alloc (Array 64 u8Ty lenUsize) (SizedInit 64 u8Ty lenUsize (encLE 8 4) (FillSequentially u8Ty ⟨fun t i => (some (encLE 1 (i * 2)), t), fun _ => []⟩ ()))
    check ((← elems u8Ty lenUsize p) == [0, 2, 4, 6])) := by decide +kernel

/-- varlen/src/array.rs:390, 399-400, 410-411 -/
example : lenU8.fromUsize (4 : BitVec 64) = some (encLE 1 4) ∧ lenU8.asUsize 64 (encLE 1 4) = 4 ∧ (LenTy.mk 8 8 false).asUsize 64 (encLE 8 (2 ^ 64 - 1)) = BitVec.ofNat 64 (2 ^ 64 - 1) ∧
    lenU8.fromUsize (257 : BitVec 64) = none := by decide +kernel

/-! ## array_init.rs -/

/-- `new_array` with the given result -/
abbrev Gives (R : RTy) (I : ArrInit) (xs : List Nat) : Prop :=
  (okOf (newArray 4096 R xs.length I st0)).map (fun r => r.1.map decLE) = some xs

/-- varlen/src/array_init.rs:12-16, 43-46, 140-142 -/
example : Gives u16Ty (FillWithDefault u16Ty (some (encLE 2 0))) [0, 0, 0, 0] ∧
    Gives u16Ty (FillSequentially u16Ty ⟨fun t i => (some (encLE 2 (i * 2)), t), fun _ => []⟩ ()) [0, 2, 4, 6] ∧
    Gives u16Ty (FillSequentially u16Ty ⟨fun t i => (some (encLE 2 (i * 2)), t), fun _ => []⟩ ()) [0, 2, 4, 6, 8] := by decide +kernel

/-- varlen/src/array_init.rs:105-107 (`std::iter::successors(Some(3), |i| Some(i * 3))`), 148-154 (a closure with state), 188-190, 255-259 -/
example : Gives u16Ty (FromIterPrefix u16Ty ⟨fun n => (.yield (encLE 2 n), n * 3), fun _ => []⟩ 3) [3, 9, 27, 81, 243] ∧
    Gives u16Ty (FillSequentially u16Ty ⟨fun n _ => (some (encLE 2 (n * 3)), n * 3), fun _ => []⟩ 1) [3, 9, 27, 81, 243] ∧
    Gives D4 (MoveFrom D4 [d4 7, d4 8]) [7, 8] := by decide +kernel

/-- varlen/src/array_init.rs:188-190, 223-226 -/
example : Passes (do
    let src ← static ([3, 1, 4, 1, 5].map (encLE 2)) 2 2
    let xs ← newArray 8192 u16Ty 5 (CopyFrom u16Ty src ([3, 1, 4, 1, 5].map (encLE 2)))
    check (xs.map decLE == [3, 1, 4, 1, 5])
    let src ← static ([7, 8].map d4) 4 4
    let xs ← newArray 8192 D4 2 (CloneFrom D4 some src ([7, 8].map d4))
    check (xs.map decLE == [7, 8])) := by decide +kernel

/-! ## lib.rs -/

/-- `Str`, `Str<u16>`, … -/
abbrev StrT (L : LenTy) : VarLen 64 := Str 64 L
/-- The value of a `Str`. -/
def strV (text : String) : V := .arr (strBytes text)

/-- varlen/src/lib.rs:344-346; str.rs:24-29, 64-68, 80-82 -/
example : Passes (do
    let p ← VBox.new alloc (StrT lenUsize) (← str lenUsize "hello")
    reads lenUsize p "hello"
    check ((← sizeOf (StrT lenUsize) p) == 8 + 5)
    check (Str.tryCopy 64 lenU8 ⟨1, 0⟩ (String.ofList (List.replicate 257 'a'))).isNone) := by decide +kernel

/-- varlen/src/lib.rs:356-360: `Array<u64, u16>` -/
example : (Array 64 u64Ty lenU16).headAlign = 2 ∧ (Array 64 u64Ty lenU16).ALIGN = 8 := by decide +kernel

/-- varlen/src/lib.rs:628-639: `Array<u32>` with 4 elements, and with `usize::MAX` -/
example : Passes (do
    match ← (SizedInit 64 lenU32.ty lenUsize (encLE 8 4) (FillWithDefault lenU32.ty (some (encLE 4 0)))).cautious with
    | some l => check (l.size.toNat == 8 + 4 * 4)
    | none => panicM .unwrapNone
    check (← (SizedInit 64 lenU32.ty lenUsize (encLE 8 (2 ^ 64 - 1)) (FillWithDefault lenU32.ty (some (encLE 4 0)))).cautious).isNone) := by decide +kernel

/-- varlen/src/lib.rs:671-673, 692-695, 745-748 -/
example : Passes (do
    let p ← VBox.new alloc (FixedLen 64 u16Ty) (FixedLen.init 64 u16Ty (encLE 2 4))
    check ((← readVal u16Ty p) == encLE 2 4)
    check ((← sizeOf (FixedLen 64 u16Ty) p) == 2)
    let q ← VBox.new alloc (FixedLen 64 u16Ty) (← (FixedLen.vclone 64 u16Ty some).vclone p (.leaf (encLE 2 4)))
    check ((← readVal u16Ty q) == encLE 2 4)) := by decide +kernel

/-- The object behind a reference to a field. -/
def FRef.ptr : FRef → Ptr
  | .val p => p
  | .field p => p
  | .slice sl => sl.ptr

/-- `t.refs()` of a tuple -/
def refs (Ts : List (VarLen 64)) (p : Ptr) : M (List Ptr) := do
  let rs ← aggRefs 0 (Ts.map .varlen) p
  pure (rs.map FRef.ptr)

/-- `tupN::Init(Str::copy(…), …)` -/
def strs (L : LenTy) : List String → M (List (VarLen 64 × Init 64))
  | [] => pure []
  | x :: xs => do
    let I ← str L x
    let r ← strs L xs
    pure ((StrT L, I) :: r)

/-- All fields read as given. -/
def readAll (L : LenTy) : List Ptr → List String → M Unit
  | [], [] => pure ()
  | p :: ps, x :: xs => do
    reads L p x
    readAll L ps xs
  | _, _ => panicM .assertFailed

/-- varlen/src/lib.rs:679-683, owned.rs:8-18 -/
example : Passes (do
    let Ts := [FixedLen 64 u16Ty, StrT lenUsize]
    let p ← VBox.new alloc (Tuple 64 Ts) (Tuple.init [(FixedLen 64 u16Ty, FixedLen.init 64 u16Ty (encLE 2 4)), (StrT lenUsize, ← str lenUsize "hello")])
    match ← refs Ts p with
    | [a, b] => do
      check ((← readVal u16Ty a) == encLE 2 4)
      reads lenUsize b "hello"
    | _ => panicM .assertFailed
    let p ← Owned.newIn alloc (Tuple 64 Ts) (Tuple.init [(FixedLen 64 u16Ty, FixedLen.init 64 u16Ty (encLE 2 42)), (StrT lenUsize, ← str lenUsize "hello")])
    match ← refs Ts p with
    | [a, _] => check ((← readVal u16Ty a) == encLE 2 42)
    | _ => panicM .assertFailed
    Owned.drop (Tuple 64 Ts) p) := by decide +kernel

/-! ## tuple.rs -/

/-- The examples of varlen/src/tuple.rs:245-342: `Tup2` to `Tup5` of `Str`s, the first of which is changed to upper case; the size of the object. -/
def tupleExample (xs : List String) (size : Nat) : M Unit := do
  let Ts := xs.map fun _ => StrT lenUsize
  let p ← VBox.new alloc (Tuple 64 Ts) (Tuple.init (← strs lenUsize xs))
  readAll lenUsize (← refs Ts p) xs
  match ← refs Ts p with
  | a :: _ => become lenUsize a "HELLO"
  | [] => panicM .assertFailed
  readAll lenUsize (← refs Ts p) ("HELLO" :: xs.tail)
  check ((← sizeOf (Tuple 64 Ts) p) == size)
  VBox.drop (Tuple 64 Ts) p

example : Passes (tupleExample ["hello", "world"] (8 * 2 + 8 + 5)) := by decide +kernel
example : Passes (tupleExample ["hello", "brave", "world"] (8 * 3 + 8 + 8 + 5)) := by decide +kernel
example : Passes (tupleExample ["hello", "brave", "new", "world"] (8 * 4 + 8 + 8 + 8 + 5)) := by decide +kernel
example : Passes (tupleExample ["hello", "brave", "new", "world", "!!!"] (8 * 5 + 8 + 8 + 8 + 8 + 3)) := by decide +kernel

/-! ## newtype.rs -/

/-- varlen/src/newtype.rs:16-51: `CountedStr`. -/
example : Passes (do
    let Ts := [FixedLen 64 u64Ty, StrT lenUsize]
    let T := Newtype (Tuple 64 Ts)
    let I := Newtype.init (Tuple.init [(FixedLen 64 u64Ty, FixedLen.init 64 u64Ty (encLE 8 "hellö wörld".length)), (StrT lenUsize, ← str lenUsize "hellö wörld")])
    let p ← VBox.new alloc T I
    let q ← Newtype.inner (Tuple 64 Ts) p
    match ← refs Ts q with
    | [a, b] => do
      check ((← readVal u64Ty a) == encLE 8 11)
      check ((← elems u8Ty lenUsize b).length == 13)
    | _ => panicM .assertFailed) := by decide +kernel

/-- varlen/src/newtype.rs:244-265: `Init3Array`. -/
example : Passes (do
    let p ← VBox.new alloc (Array 64 u16Ty lenUsize) (Newtype.init (SizedInit 64 u16Ty lenUsize (encLE 8 3) (MoveFrom u16Ty ([4, 5, 6].map (encLE 2)))))
    check ((← elems u16Ty lenUsize p) == [4, 5, 6])) := by decide +kernel

/-! ## vbox.rs, owned.rs -/

/-- varlen/src/vbox.rs:76-82, 104-110, 206-209 -/
example : Passes (do
    let p ← VBox.new alloc (StrT lenUsize) (← str lenUsize "Hello")
    reads lenUsize p "Hello"
    become lenUsize p "HELLO"
    reads lenUsize p "HELLO"
    let p ← VBox.fromRaw (← VBox.intoRaw p)
    become lenUsize p "hello"
    reads lenUsize p "hello"
    let q ← VBox.clone alloc (StrT lenUsize) (Str.vclone 64 lenUsize) p (strV "hello")
    VBox.drop (StrT lenUsize) p
    reads lenUsize q "hello") := by decide +kernel

/-- varlen/src/owned.rs:136-143, 156-161 (`Str` needs no drop, so that `leak` does what it says) -/
example : Passes (do
    let p ← Owned.newIn alloc (StrT lenUsize) (← str lenUsize "Hello")
    become lenUsize p "HELLO"
    reads lenUsize p "HELLO"
    become lenUsize p "hello"
    let q ← Owned.leak (StrT lenUsize) p
    reads lenUsize q "hello") := by decide +kernel

/-! ## seq.rs -/

/-- `s.push(Str::<L>::try_copy(text).unwrap())` -/
def push (chk : Bool) (L : LenTy) (text : String) : MQ 64 Unit := do
  let I ← liftQ (str L text)
  Seq.push alloc chk (StrT L) I

/-- `assert!(…)` about the sequence -/
def checkQ (f : SeqS 64 → Bool) : MQ 64 Unit := do
  let q ← getQ
  liftQ (check (f q))

/-- `s.iter().map(|s| &s[..]).collect()` is the given list, and the iterator ends there -/
def lists (L : LenTy) (xs : List String) : MQ 64 Unit := do
  let q ← getQ
  let (ps, it) ← liftQ (Iter.take (StrT L) xs.length (Seq.iter q))
  liftQ (readAll L ps xs)
  let (e, _) ← liftQ (Iter.next (StrT L) it)
  liftQ (check e.isNone)

/-- A program on a new sequence runs to the end. -/
abbrev PassesQ (L : LenTy) (x : MQ 64 Unit) : Prop := isOk (x (st0, Seq.new (StrT L))) = true

/-- varlen/src/seq.rs:32-37, 63-66, 536-538, 598-604 -/
example : PassesQ lenUsize (do
    checkQ fun q => Seq.len q == 0
    push false lenUsize "hello"
    checkQ fun q => Seq.len q == 1
    push false lenUsize "good"
    checkQ fun q => Seq.len q == 2
    push false lenUsize "world!"
    lists lenUsize ["hello", "good", "world!"]
    Seq.drop false (StrT lenUsize)) := by decide +kernel

/-- varlen/src/seq.rs:352-381 -/
example : PassesQ lenU16 (do
    checkQ fun q => Seq.offset q == 0
    push false lenU16 "hello"
    checkQ fun q => Seq.offset q == 4
    push false lenU16 "fantastic"
    checkQ fun q => Seq.offset q == 10
    push false lenU16 "world"
    checkQ fun q => Seq.offset q == 14
    let p ← liftQ (Seq.fromOffsetUnchecked (StrT lenU16) (← getQ) 4)
    liftQ (reads lenU16 p "fantastic")) := by decide +kernel

/-- varlen/src/seq.rs:387-393, with `from_offset` -/
def indexable : MQ 64 Unit := do
  push true lenU16 "hello"
  checkQ fun q => Seq.offset q == 4
  push true lenU16 "fantastic"
  push true lenU16 "world"
  let p ← liftQ (Seq.fromOffset (StrT lenU16) (← getQ) 4)
  liftQ (reads lenU16 p "fantastic")

example : PassesQ lenU16 indexable := by decide +kernel

/-- varlen/src/seq.rs:394: "Would panic: seq.from_offset(5)" -/
example : (panicOf ((do
    indexable
    let _ ← liftQ (Seq.fromOffset (StrT lenU16) (← getQ) 5)) (st0, Seq.new (StrT lenU16)))).map Prod.fst = some .invalidOffset := by decide +kernel

/-- varlen/src/seq.rs:616-622, 638-644 -/
example : PassesQ lenU32 (do
    checkQ fun q => Seq.capacityInOffsets q == 0 && Seq.offset q == 0
    push false lenU32 "hello"
    checkQ fun q => Seq.capacityInOffsets q == 8 && Seq.offset q == 3
    push false lenU32 "world"
    checkQ fun q => Seq.capacityInOffsets q == 8 && Seq.offset q == 6) := by decide +kernel

/-- varlen/src/seq.rs:745-751 -/
example : PassesQ lenU16 (do
    push false lenU16 "hello"
    push false lenU16 "world"
    let q ← getQ
    match ← liftQ (Iter.take (StrT lenU16) 2 (Seq.iter q)) with
    | ([_, e], _) => liftQ (do check ((← Seq.offsetOf (StrT lenU16) q e) == 4))
    | _ => liftQ (panicM .assertFailed)) := by decide +kernel

/-- varlen/src/seq.rs:990-998 (and 936-941, 962-970) -/
example : PassesQ lenUsize (do
    push true lenUsize "hello"
    let pos := Seq.offset (← getQ)
    liftQ (check (!(← liftQ (Seq.isOffsetValid (StrT lenUsize) (← getQ) pos))))
    push true lenUsize "world"
    liftQ (check ((← liftQ (Seq.isOffsetValid (StrT lenUsize) (← getQ) pos))))
    liftQ (check (!(← liftQ (Seq.isOffsetValid (StrT lenUsize) (← getQ) 1))))
    let p ← liftQ (Seq.fromOffset (StrT lenUsize) (← getQ) 0)
    liftQ (reads lenUsize p "hello")
    let p ← liftQ (Seq.fromOffset (StrT lenUsize) (← getQ) pos)
    liftQ (become lenUsize p "WORLD")
    liftQ (reads lenUsize p "WORLD")
    lists lenUsize ["hello", "WORLD"]) := by decide +kernel

/-- varlen/src/seq.rs:724-728, 1109-1115, 1192-1204: `iter_mut`, `limited_to` -/
example : PassesQ lenUsize (do
    push false lenUsize "hello"
    push false lenUsize "good"
    push false lenUsize "world!"
    let q ← getQ
    let (ps, e) ← liftQ (Iter.take (StrT lenUsize) 3 (Iter.limitedTo (Seq.iter q) 2))
    liftQ (readAll lenUsize ps ["hello", "good"])
    liftQ (check (e.len == 0))
    match ps with
    | [a, b] => liftQ (do become lenUsize a "HELLO"; become lenUsize b "GOOD")
    | _ => liftQ (panicM .assertFailed)
    lists lenUsize ["HELLO", "GOOD", "world!"]) := by decide +kernel

/-- varlen/src/seq.rs:1028-1042, 1060-1068: `extend`, `collect` -/
example : PassesQ lenUsize (do
    push false lenUsize "hello"
    let is ← liftQ (strs lenUsize ["brave", "new", "world"])
    Seq.extend alloc false (StrT lenUsize) false (is.map Prod.snd)
    lists lenUsize ["hello", "brave", "new", "world"]
    let is ← liftQ (strs lenUsize ["hello", "world"])
    Seq.fromIter alloc false (StrT lenUsize) false (is.map Prod.snd)
    lists lenUsize ["hello", "world"]) := by decide +kernel

/-- varlen/src/lib.rs:430-439, vbox.rs:218-235: `vcopy`, `vclone` and `clone` of a box, and a box as an initializer -/
example : PassesQ lenUsize (do
    let p ← liftQ (do VBox.new alloc (StrT lenUsize) (← str lenUsize "hello"))
    let l ← liftQ ((StrT lenUsize).calculateLayout p)
    Seq.push alloc false (StrT lenUsize) (VCopier (StrT lenUsize) p (strV "hello") l)
    let I ← liftQ ((Str.vclone 64 lenUsize).vclone p (strV "hello"))
    Seq.push alloc false (StrT lenUsize) I
    let c ← liftQ (VBox.clone alloc (StrT lenUsize) (Str.vclone 64 lenUsize) p (strV "hello"))
    Seq.push alloc false (StrT lenUsize) (VBox.init (StrT lenUsize) c (strV "hello") l)
    lists lenUsize ["hello", "hello", "hello"]) := by decide +kernel

/-- varlen/src/seq.rs:868-892, 1256-1280: the number of destructor calls while elements are taken out -/
def drops : MQ 64 (List Nat) := do
  let T := FixedLen 64 D4
  let push := fun n => Seq.push alloc false T (FixedLen.init 64 D4 (d4 n))
  let count : MQ 64 Nat := do
    let s ← liftQ getS
    pure s.log.length
  push 123
  push 456
  let c0 ← count
  let it ← Seq.takeElems false T
  let (e1, it) ← liftQ (Iter.next T it)
  let p1 := e1.getD ⟨0, 0⟩
  let v1 ← liftQ (readVal D4 p1)
  liftQ (Owned.drop T p1)
  let c1 ← count
  let (e2, it) ← liftQ (Iter.next T it)
  let p2 := e2.getD ⟨0, 0⟩
  let v2 ← liftQ (readVal D4 p2)
  liftQ (Owned.drop T p2)
  let c2 ← count
  let (e3, _) ← liftQ (Iter.next T it)
  pure [c0, decLE v1, c1, decLE v2, c2, if e3.isNone then 0 else 1]

example : (okOf (drops (st0, Seq.new (FixedLen 64 D4)))).map Prod.fst = some [0, 123, 1, 456, 2, 0] := by decide +kernel

/-! ## varlen_macro/src/lib.rs -/

open Macro in
/-- `Person` (varlen_macro/src/lib.rs:24-31). -/
def personFields : List Field := [
  ⟨[], .inherited, "age", .other "usize"⟩,
  ⟨["#[varlen]"], .inherited, "name", .other "Str"⟩,
  ⟨["#[varlen]"], .inherited, "email", .other "Str"⟩]

open Macro in
def personMeaning : Meaning 64 where
  rty _ := lenUsize.ty
  vty _ := StrT lenUsize
  expr _ _ := none
  headSize := 8
  bareHeadSize := 8
  headAlign := 8
  off _ := 0

open Macro in
/-- `refs().x` or `muts().x` -/
def fieldOf (x : Ident) (rs : List (Ident × GenTy × FRef)) : Ptr :=
  match rs.lookup x with
  | some (_, r) => FRef.ptr r
  | none => ⟨0, 0⟩

open Macro in
/-- varlen_macro/src/lib.rs:33-44 -/
def person (o : Output) : M Unit := do
  let name ← str lenUsize "Harry Potter"
  let email ← str lenUsize "harry.potter@example.com"
  let args : InitArgs 64 := ⟨fun _ => encLE 8 16, fun x => if x = "name" then name else email, fun _ => MoveFrom u8Ty []⟩
  let p ← VBox.new alloc (genVarLen personMeaning o personFields) (genInitializer personMeaning o personFields args)
  check ((← readVal lenUsize.ty (fieldOf "age" (← genRefs personMeaning o p))) == encLE 8 16)
  reads lenUsize (fieldOf "name" (← genRefs personMeaning o p)) "Harry Potter"
  become lenUsize (fieldOf "name" (← genMuts personMeaning o p)) "HARRY POTTER"
  reads lenUsize (fieldOf "name" (← genRefs personMeaning o p)) "HARRY POTTER"
  reads lenUsize (fieldOf "email" (← genRefs personMeaning o p)) "harry.potter@example.com"
  VBox.drop (genVarLen personMeaning o personFields) p

open Macro in
example : (match defineVarlen id id ⟨.inherited, "Person", .named personFields⟩ with
    | .generated o => isOk (person o st0)
    | _ => false) = true := by decide +kernel

open Macro in
/-- `MultipleArrays` (varlen_macro/src/lib.rs:54-67). -/
def maFields : List Field := [
  ⟨["#[controls_layout]"], .inherited, "len", .other "usize"⟩,
  ⟨["#[varlen_array]"], .inherited, "array1", .array (.other "u16") "*len"⟩,
  ⟨["#[varlen_array]"], .inherited, "array2", .array (.other "u8") "*len"⟩,
  ⟨["#[varlen_array]"], .inherited, "half_array", .array (.other "u16") "(*len) / 2"⟩]

open Macro in
def maMeaning : Meaning 64 where
  rty t := if t = .other "u8" then u8Ty else if t = .other "usize" then lenUsize.ty else u16Ty
  vty _ := ArrT
  expr e env :=
    let n := decLE ((env.lookup "len").getD [])
    some (BitVec.ofNat 64 (if e = "*len" then n else n / 2))
  headSize := 8
  bareHeadSize := 8
  headAlign := 8
  off _ := 0

open Macro in
/-- varlen_macro/src/lib.rs:69-75 -/
def maArgs : InitArgs 64 where
  value _ := encLE 8 4
  init _ := arrInit []
  array x :=
    if x = "array1" then FillSequentially u16Ty ⟨fun t i => (([1, 3, 9, 27][i]?).map (encLE 2), t), fun _ => []⟩ ()
    else if x = "array2" then FillSequentially u8Ty ⟨fun t i => (([1, 3, 9, 27][3 - i]?).map (encLE 1), t), fun _ => []⟩ ()
    else FillSequentially u16Ty ⟨fun t i => (([1, 3, 9, 27][i * 2]?).map (encLE 2), t), fun _ => []⟩ ()

open Macro in
/-- varlen_macro/src/lib.rs:76-79 -/
def multipleArrays (o : Output) : M (List (List Nat)) := do
  let p ← VBox.new alloc (genVarLen maMeaning o maFields) (genInitializer maMeaning o maFields maArgs)
  let rs ← genRefs maMeaning o p
  let a1 ← (sliceOf "array1" rs).read u16Ty
  let a2 ← (sliceOf "array2" rs).read u8Ty
  let a3 ← (sliceOf "half_array" rs).read u16Ty
  pure ([a1, a2, a3].map (·.map decLE))

open Macro in
example : (match defineVarlen id id ⟨.inherited, "MultipleArrays", .named maFields⟩ with
    | .generated o => (okOf (multipleArrays o st0)).map Prod.fst
    | _ => none) = some [[1, 3, 9, 27], [27, 9, 3, 1], [1, 9]] := by decide +kernel

end Varlen.Docs
