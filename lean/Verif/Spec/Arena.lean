import Verif.Model.Arena
import Verif.Spec.Client
/-!
# Specification: objects that share the chunks of an arena

In the worlds of Spec/Client.lean every object has an allocation of its own. Here such a world is the *ideal* view of a program, and the memory the program really has is packed: the ideal
allocations are ranges of the real ones, and many of them may be in the same one (a chunk of an arena). A `Place` says where each ideal allocation really is.
-/
namespace Varlen.Arena
variable {w : Nat}

/-- Where the ideal allocations are: `loc b` is the real address of the start of allocation `b`, which has `len b` bytes (`none` once nobody needs it any more); `chunk c` tells that the real allocation `c` is a chunk of an arena; `heap b` tells that `b` comes from the global allocator, so that its real place is a whole allocation, which
will be freed, and not a part of a chunk. -/
structure Place where
  loc : Nat → Ptr
  len : Nat → Option Nat
  chunk : Nat → Prop
  heap : Nat → Prop

/-- The real pointer for an ideal one. -/
def Place.ptr (ρ : Place) (p : Ptr) : Ptr := (ρ.loc p.blk).add p.off

/-- The real memory `m` is a packed form of the ideal memory `s`. -/
structure Packed (ρ : Place) (s m : St) : Prop where
  log : m.log = s.log
  /-- What is no allocation is no allocation. -/
  unused : ∀ b, s.blk b = none → ρ.loc b = ⟨0, 0⟩
  /-- Addresses are the same. -/
  addr : ∀ b B, s.blk b = some B → ∃ C, m.blk (ρ.loc b).blk = some C ∧ C.base + (ρ.loc b).off = B.base
  /-- A live allocation is a range of a live one, with the same contents. -/
  live : ∀ b B C, s.blk b = some B → B.live = true → m.blk (ρ.loc b).blk = some C →
    C.live = true ∧ (ρ.loc b).off + B.size ≤ C.size ∧ ∀ i, i < B.size → C.data ((ρ.loc b).off + i) = B.data i
  /-- Different live allocations do not overlap. -/
  disj : ∀ b b' B B', b ≠ b' → s.blk b = some B → s.blk b' = some B' → B.live = true → B'.live = true → (ρ.loc b).blk = (ρ.loc b').blk →
    (ρ.loc b).off + B.size ≤ (ρ.loc b').off ∨ (ρ.loc b').off + B'.size ≤ (ρ.loc b).off
  /-- One from the global allocator has a real allocation to itself. -/
  heap : ∀ b B, ρ.heap b → s.blk b = some B → B.live = true → (ρ.loc b).off = 0 ∧ (∃ C, m.blk (ρ.loc b).blk = some C ∧ C.size = B.size ∧ C.align = B.align) ∧
    ∀ b' B', b' ≠ b → s.blk b' = some B' → B'.live = true → (ρ.loc b').blk ≠ (ρ.loc b).blk
  /-- The real allocations do not overlap. -/
  apart : ∀ c c' C C', c ≠ c' → m.blk c = some C → m.blk c' = some C' → C.live = true → C'.live = true → C.base + C.size ≤ C'.base ∨ C'.base + C'.size ≤ C.base
  len : ∀ b B, s.blk b = some B → B.live = true → ∃ n, ρ.len b = some n ∧ B.size ≤ n
  /-- Chunks are no allocations from the global allocator of somebody else. -/
  chunks : ∀ c, ρ.chunk c → m.blk c ≠ none ∧ ∀ b, ρ.heap b → (ρ.loc b).blk ≠ c

/-- Bytes `lo..hi` of the chunk `c` are free: nothing that anybody needs is there. -/
def Room (ρ : Place) (c lo hi : Nat) : Prop := ∀ b n, (ρ.loc b).blk = c → ρ.len b = some n → hi ≤ (ρ.loc b).off ∨ (ρ.loc b).off + n ≤ lo

/-- What is free in the chunks stays so, except the range `taken` (`n` bytes from `q` on). -/
def Takes (ρ ρ' : Place) (taken : Option (Ptr × Nat)) : Prop :=
  ∀ c, ρ.chunk c → ρ'.chunk c ∧ ∀ lo hi, Room ρ c lo hi → (∀ q n, taken = some (q, n) → c = q.blk → hi ≤ q.off ∨ q.off + n ≤ lo) → Room ρ' c lo hi

/-- The outcome in the real memory is that in the ideal one, unless that is undefined. `R` relates the results. -/
def SimRes {α' α : Type} (ρ : Place) (R : α' → α → Prop) (r' : Res St α') (r : Res St α) : Prop :=
  match r' with
  | .ub _ => True
  | .ok a' s => ∃ a m, r = .ok a m ∧ Packed ρ s m ∧ R a' a
  | .panic e s => ∃ m, r = .panic e m ∧ Packed ρ s m

/-- The program `x` does in the real memory what `x'` does in the ideal one. -/
structure Sim {α' α : Type} (ρ : Place) (R : α' → α → Prop) (x' : M α') (x : M α) : Prop where
  run : ∀ s m, Packed ρ s m → SimRes ρ R (x' s) (x m)

/-- A type whose code works the same wherever an object is. -/
structure Reloc (T : VarLen w) : Prop where
  calculateLayout : ∀ ρ p, Sim ρ (· = ·) (T.calculateLayout p) (T.calculateLayout (ρ.ptr p))
  vdrop : ∀ ρ p l, Sim ρ (· = ·) (T.vdrop p l) (T.vdrop (ρ.ptr p) l)

/-- The library's types (`Str` is a newtype with an invariant), and user-written ones whose code works the same wherever the object is. -/
inductive Movable : VarLen w → Prop
  | fixedLen {R : RTy} : Movable (FixedLen w R)
  | array {R : RTy} {L : LenTy} : Movable (Array w R L)
  | newtype {T : VarLen w} {inv : V → Prop} : Movable T → Movable (NewtypeInv T inv)
  | tuple {Ts : List (VarLen w)} : (∀ T ∈ Ts, Movable T) → Movable (Tuple w Ts)
  | struct {headSize headAlign : Nat} {fs : List (Fld w)} : (∀ T, Fld.varlen T ∈ fs → Movable T) → Movable (Struct w headSize headAlign fs)
  | user {T : VarLen w} : Reloc T → Movable T

/-- The two places agree on the allocations in `on`. -/
def Place.Agree (ρ ρ' : Place) (on : Nat → Prop) : Prop := ∀ b, on b → ρ'.loc b = ρ.loc b ∧ (ρ'.heap b ↔ ρ.heap b)

/-- The array initializer does in the real memory what `I'` does in the ideal one. -/
structure ArrSim (ρ : Place) (I' I : ArrInit) : Prop where
  run : ∀ p n, Sim ρ (· = ·) (I'.run ⟨p, n⟩) (I.run ⟨ρ.ptr p, n⟩)
  drop : Sim ρ (· = ·) I'.dropI I.dropI

/-- The initializer does in the real memory what `I'` does in the ideal one. -/
structure InitSim (ρ : Place) (I' I : Init w) : Prop where
  cautious : Sim ρ (· = ·) I'.cautious I.cautious
  initTo : ∀ p l, Sim ρ (· = ·) (I'.initTo p l) (I.initTo (ρ.ptr p) l)
  drop : Sim ρ (· = ·) I'.dropI I.dropI

/-- The array initializer `I` is `I'` with the ideal pointers in it replaced by real ones. -/
inductive PlacedArr (ρ : Place) (R : RTy) : ArrInit → ArrInit → Prop
  | fillSequentially {τ : Type} {f : Closure τ} {t : τ} : PlacedArr ρ R (FillSequentially R f t) (FillSequentially R f t)
  | fromIterPrefix {τ : Type} {it : IterFn τ} {t : τ} : PlacedArr ρ R (FromIterPrefix R it t) (FromIterPrefix R it t)
  | copyFrom {src : Ptr} {xs : List Img} : PlacedArr ρ R (CopyFrom R src xs) (CopyFrom R (ρ.ptr src) xs)
  | cloneFrom {c : CloneFn} {src : Ptr} {xs : List Img} : PlacedArr ρ R (CloneFrom R c src xs) (CloneFrom R c (ρ.ptr src) xs)
  | moveFrom {xs : List Img} : PlacedArr ρ R (MoveFrom R xs) (MoveFrom R xs)
  | user {I' I : ArrInit} : (∀ ρ', ρ.Agree ρ' I'.fp → ArrSim ρ' I' I) → PlacedArr ρ R I' I

/-- A field of a struct with its initializer, in the ideal and in the real memory. -/
inductive FI2 (w : Nat)
  | normal (R : RTy) (off : Nat) (img : Img)
  | length (R : RTy) (off : Nat) (img : Img)
  | varlen (T : VarLen w) (I' I : Init w)
  | array (R : RTy) (len : LenFn w) (I' I : ArrInit)

def FI2.ideal : FI2 w → FI w
  | .normal R off img => .normal R off img
  | .length R off img => .length R off img
  | .varlen T I' _ => .varlen T I'
  | .array R len I' _ => .array R len I'

def FI2.real : FI2 w → FI w
  | .normal R off img => .normal R off img
  | .length R off img => .length R off img
  | .varlen T _ I => .varlen T I
  | .array R len _ I => .array R len I

/-- The initializer `I` is `I'` with the ideal pointers in it replaced by real ones. `agg` is for structs and tuples; the initializers that `vclone` gives are made of `cloner`, `sized`, `newtype` and `agg`. -/
inductive Placed (ρ : Place) : Init w → Init w → Prop
  | fixedLen {R : RTy} {img : Img} : Placed ρ (FixedLen.init w R img) (FixedLen.init w R img)
  | cloner {R : RTy} {c : CloneFn} {src : Ptr} {img : Img} : Placed ρ (FixedLen.cloner w R c src img) (FixedLen.cloner w R c (ρ.ptr src) img)
  | sized {R : RTy} {L : LenTy} {len : Img} {I' I : ArrInit} : PlacedArr ρ R I' I → Placed ρ (SizedInit w R L len I') (SizedInit w R L len I)
  | newtype {I' I : Init w} : Placed ρ I' I → Placed ρ (Newtype.init I') (Newtype.init I)
  | agg {tup : Bool} {headSize headAlign : Nat} {fis : List (FI2 w)} : (∀ T I' I, FI2.varlen T I' I ∈ fis → Placed ρ I' I) →
      (∀ R len I' I, FI2.array R len I' I ∈ fis → PlacedArr ρ R I' I) →
      Placed ρ (aggInitializer tup headSize headAlign (fis.map FI2.ideal)) (aggInitializer tup headSize headAlign (fis.map FI2.real))
  | vcopy {T : VarLen w} {src : Ptr} {v : V} {l : Layout w} : Movable T → Placed ρ (VCopier T src v l) (VCopier T (ρ.ptr src) v l)
  | vbox {T : VarLen w} {p : Ptr} {v : V} {l : Layout w} : Movable T → ρ.heap p.blk → Placed ρ (VBox.init T p v l) (VBox.init T (ρ.ptr p) v l)
  | owned {T : VarLen w} {p : Ptr} {v : V} {l : Layout w} : Movable T → Placed ρ (Owned.init T p v l) (Owned.init T (ρ.ptr p) v l)
  | user {I' I : Init w} : (∀ ρ', ρ.Agree ρ' I'.fp → InitSim ρ' I' I) → Placed ρ I' I

/-- The implementations of `VClone` (that of `Str` is a newtype's), and user-written ones that work the same wherever the object is. -/
inductive MClone : VClone w → Prop
  | fixedLen {R : RTy} {c : CloneFn} : MClone (FixedLen.vclone w R c)
  | array {R : RTy} {L : LenTy} {c : CloneFn} : MClone (Array.vcloneI w R L c)
  | newtype {C : VClone w} : MClone C → MClone (Newtype.vclone C)
  | tuple {ts : List (VarLen w × VClone w)} : (∀ t ∈ ts, Movable t.1) → (∀ t ∈ ts, MClone t.2) → MClone (Tuple.vclone ts)
  | user {C : VClone w} : (∀ ρ p v, Sim ρ (Placed ρ) (C.vclone p v) (C.vclone (ρ.ptr p) v)) → MClone C

/-- What an arena guarantees about the memory it hands out: it is in a live chunk, aligned, not null, does not reach the end of the address space, and nobody uses it. -/
structure Vacant (w : Nat) (ρ : Place) (m : St) (p : Ptr) (size align : Nat) : Prop where
  chunk : ρ.chunk p.blk
  live : ∃ C, m.blk p.blk = some C ∧ C.live = true ∧ p.off + size ≤ C.size
  aligned : Aligned m p align
  nonnull : 0 < m.addr p
  fits : m.addr p + size < 2 ^ w
  room : Room ρ p.blk p.off (p.off + size)

/-- The real sequence, and the real iterator over one, for an ideal one. -/
def Place.seq (ρ : Place) (q : SeqS w) : SeqS w := { q with ptr := ρ.ptr q.ptr }
def Place.iter (ρ : Place) (it : IterS w) : IterS w := ⟨ρ.ptr it.ptr, it.len⟩

/-- The real object for an ideal one. -/
def Place.handle (ρ : Place) : Handle w → Handle w
  | .box T p v => .box T (ρ.ptr p) v
  | .owned T p v => .owned T (ρ.ptr p) v
  | .seq chk T q h t => .seq chk T (ρ.seq q) h t
  | .drain chk T q items it => .drain chk T (ρ.seq q) (items.map fun x => (ρ.ptr x.1, x.2)) (it.map fun x => (ρ.iter x.1, x.2))

/-- The object occupies the `n` bytes at `p`: a box or an object in an arena those of its value, a sequence those of its storage (elements, and the bitmask if there is one). -/
inductive Covers (m : St) : Handle w → Ptr → Nat → Prop
  | box {T : VarLen w} {p : Ptr} {v : V} {l : Layout w} : Valid T m p v l → Covers m (.box T p v) p l.size.toNat
  | owned {T : VarLen w} {p : Ptr} {v : V} {l : Layout w} : Valid T m p v l → Covers m (.owned T p v) p l.size.toNat
  | seq {chk : Bool} {T : VarLen w} {q : SeqS w} {h : List (BitVec w × V)} {t : Bool} :
      Covers m (.seq chk T q h t) q.ptr (q.cap.toNat * T.ALIGN.toNat + if chk then (q.cap.toNat + 7) / 8 else 0)
  | drain {chk : Bool} {T : VarLen w} {q : SeqS w} {items : List (Ptr × V)} {it : Option (IterS w × List V)} :
      Covers m (.drain chk T q items it) q.ptr (q.cap.toNat * T.ALIGN.toNat + if chk then (q.cap.toNat + 7) / 8 else 0)

/-- The type of the values in an object. -/
def typeOf : Handle w → VarLen w
  | .box T _ _ => T
  | .owned T _ _ => T
  | .seq _ T _ _ _ => T
  | .drain _ T _ _ _ => T

/-- A program whose real memory is `m`: `W` is its ideal view (a world that programs get to), and `ρ` tells where the objects are. Boxes, and the storage of sequences (`blk = 0` if there is none), come from the global allocator. -/
structure Sound (W : World w) (ρ : Place) (m : St) : Prop where
  reach : Reach W
  packed : Packed ρ W.st m
  heap : ∀ h ∈ W.objs, h.isOwned ∨ h.blk = 0 ∨ ρ.heap h.blk
  types : ∀ h ∈ W.objs, Movable (typeOf h)

/-- The program goes on: in the ideal view by a step of Spec/Client.lean, and the real memory is again a packed form of it. Nothing has moved. -/
structure Next (W : World w) (ρ : Place) (W' : World w) (ρ' : Place) (m' : St) : Prop where
  step : Step W (.next W')
  sound : Sound W' ρ' m'
  stays : ρ.Agree ρ' (fun b => W.st.blk b ≠ none)

/-- The accounts of the ideal view (see Spec/Client.lean): what values have come into existence, and whether values or allocations may have been lost. -/
structure Goes (W W' : World w) (made : List Event) (lost leak : Bool) : Prop where
  made : W'.made = W.made ++ made
  lost : W'.lost = (W.lost || lost)
  leak : W'.leak = (W.leak || leak)

/-- The rest of the program does anything with the real memory that leaves the objects of the library alone: it may allocate (so may the arena), write into memory of its own, and free memory that holds no
object; destructors of its own values may run (`ev`). -/
structure Elsewhere (W : World w) (ρ : Place) (m m' : St) (ev : List Event) : Prop where
  log : m'.log = m.log ++ ev
  /-- Allocations do not move or change size. -/
  blocks : ∀ c C, m.blk c = some C → ∃ l d, m'.blk c = some { C with live := l, data := d }
  apart : ∀ c c' C C', c ≠ c' → m'.blk c = some C → m'.blk c' = some C' → C.live = true → C'.live = true → C.base + C.size ≤ C'.base ∨ C'.base + C'.size ≤ C.base
  /-- What is not its own stays allocated and keeps its contents. -/
  held : ∀ b B C C', W.st.blk b = some B → B.live = true → ¬ W.ext b → m.blk (ρ.loc b).blk = some C → m'.blk (ρ.loc b).blk = some C' →
    C'.live = true ∧ ∀ i, i < B.size → C'.data ((ρ.loc b).off + i) = C.data ((ρ.loc b).off + i)

end Varlen.Arena
