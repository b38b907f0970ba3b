import Verif.Spec.Drops
/-!
# Specification: which values an initializer holds, and which it makes

An initializer may hold values of plain types (`StructName::Init { … }` literals, `MoveFrom`, iterators, closures, boxes), and may make new ones (clones, results of closures). Both
carry destructors. `Accounts T I held made` lists the effects of the destructors of the values held by `I` (in the order in which dropping `I` runs them) and of the values it
makes if it runs to its end.
-/
namespace Varlen
variable {w : Nat}

/-- No effect occurs in `xs` more often than in `ys`. -/
def AtMost (xs ys : List Event) : Prop := ∀ e, xs.count e ≤ ys.count e

/-- `n` calls of a closure with `i`, `i + 1`, …: each one returns a value, taken from what the closure held or newly made (`m`), and gives up nothing else; or panics, destroying
nothing twice. -/
inductive ClosureCalls {τ : Type} (R : RTy) (f : Closure τ) : τ → Nat → Nat → List Event → Prop
  | stop {t : τ} {i : Nat} : ClosureCalls R f t i 0 []
  | call {t t' : τ} {i n : Nat} {img : Img} {m ms : List Event} : f.call t i = (some img, t') → (R.dtor img ++ f.drops t').Perm (f.drops t ++ m) → ClosureCalls R f t' (i + 1) n ms →
      ClosureCalls R f t i (n + 1) (m ++ ms)
  | panic {t t' : τ} {i n : Nat} {m : List Event} : f.call t i = (none, t') → AtMost (f.drops t') (f.drops t ++ m) → ClosureCalls R f t i (n + 1) m

/-- The same for `n` calls of `next`; the iterator may also end early. -/
inductive IterNexts {τ : Type} (R : RTy) (it : IterFn τ) : τ → Nat → List Event → Prop
  | stop {t : τ} : IterNexts R it t 0 []
  | yield {t t' : τ} {n : Nat} {img : Img} {m ms : List Event} : it.next t = (.yield img, t') → (R.dtor img ++ it.drops t').Perm (it.drops t ++ m) → IterNexts R it t' n ms →
      IterNexts R it t (n + 1) (m ++ ms)
  | done {t t' : τ} {n : Nat} {m : List Event} : it.next t = (.done, t') → AtMost (it.drops t') (it.drops t ++ m) → IterNexts R it t (n + 1) m
  | panic {t t' : τ} {n : Nat} {m : List Event} : it.next t = (.panic, t') → AtMost (it.drops t') (it.drops t ++ m) → IterNexts R it t (n + 1) m

/-- Array initializers, for a slice of `n` elements of type `R`. -/
inductive ArrAccounts (R : RTy) (n : Nat) : ArrInit → List Event → List Event → Prop
  | fillSequentially {τ : Type} {f : Closure τ} {t : τ} {ms : List Event} : ClosureCalls R f t 0 n ms → ArrAccounts R n (FillSequentially R f t) (f.drops t) ms
  | fillWithDefault {img : Img} : ArrAccounts R n (FillWithDefault R (some img)) [] (List.replicate n (R.dtor img)).flatten
  | fillWithDefaultPanic : ArrAccounts R n (FillWithDefault R none) [] []
  | fromIterPrefix {τ : Type} {it : IterFn τ} {t : τ} {ms : List Event} : IterNexts R it t n ms → ArrAccounts R n (FromIterPrefix R it t) (it.drops t) ms
  | copyFrom {src : Ptr} {xs : List Img} : R.needsDrop = false → ArrAccounts R n (CopyFrom R src xs) [] []
  | cloneFrom {c : CloneFn} {src : Ptr} {xs ys : List Img} : xs.map c = ys.map some → ArrAccounts R n (CloneFrom R c src xs) [] (ys.map R.dtor).flatten
  | cloneFromPanic {c : CloneFn} {src : Ptr} {xs : List Img} : (n ≠ xs.length ∨ ∃ x ∈ xs, c x = none) → ArrAccounts R n (CloneFrom R c src xs) [] []
  | moveFrom {xs : List Img} : ArrAccounts R n (MoveFrom R xs) (xs.map R.dtor).flatten []
  /-- A user-written one, with what its implementation declares. -/
  | user {I : ArrInit} {held made : List Event} : I.owes = held → (∀ xs, I.vals n = some xs → (I.left n ++ (xs.map R.dtor).flatten).Perm (held ++ made)) →
      (I.vals n = none → AtMost (I.lost n) (held ++ made)) → ArrAccounts R n I held made

mutual
/-- Initializers. -/
inductive Accounts : VarLen w → Init w → List Event → List Event → Prop
  | fixedLen {R : RTy} {img : Img} : Accounts (FixedLen w R) (FixedLen.init w R img) (R.dtor img) []
  | sized {R : RTy} {L : LenTy} {len : Img} {I : ArrInit} {held made : List Event} : ArrAccounts R (L.asUsize w len).toNat I held made →
      Accounts (Array w R L) (SizedInit w R L len I) held made
  | str {L : LenTy} {src : Ptr} {t : String} {I : Init w} : Str.tryCopy w L src t = some I → Accounts (Str w L) I [] []
  | newtype {T : VarLen w} {I : Init w} {held made : List Event} : Accounts T I held made → Accounts (Newtype T) (Newtype.init I) held made
  | tuple {fis : List (VarLen w × Init w)} {held made : List Event} : AccountsFields [] (fis.map fun f => .varlen f.1 f.2) held made →
      Accounts (Tuple w (fis.map (·.1))) (Tuple.init fis) held made
  | struct {headSize headAlign : Nat} {fis : List (FI w)} {held made : List Event} : AccountsFields (initLengths fis) fis held made →
      Accounts (Struct w headSize headAlign (fis.map FI.fld)) (Struct.init headSize headAlign fis) held made
  | vclone {T : VarLen w} {C : VClone w} {s : St} {p : Ptr} {v : V} {l : Layout w} {I : Init w} {made : List Event} : LibClone T C → Valid T s p v l → s.blk p.blk ≠ none →
      C.vclone p v s = .ok I s → (∀ v', C.cloneV v = some v' → Destroys T v' made) → Accounts T I [] made
  | vcopy {T : VarLen w} {src : Ptr} {v : V} {l : Layout w} : Destroys T v [] → Accounts T (VCopier T src v l) [] []
  | vbox {T : VarLen w} {p : Ptr} {v : V} {l : Layout w} {held : List Event} : Destroys T v held → Accounts T (VBox.init T p v l) held []
  | owned {T : VarLen w} {p : Ptr} {v : V} {l : Layout w} {held : List Event} : Destroys T v held → Accounts T (Owned.init T p v l) held []
  /-- A user-written one, with what its implementation declares. -/
  | user {T : VarLen w} {I : Init w} {held made : List Event} : I.owes = held → (∀ v, I.val = some v → (I.left ++ T.drops v).Perm (held ++ made)) →
      (I.val = none → AtMost I.lost (held ++ made)) → Accounts T I held made
/-- The fields of a struct or tuple initializer, in declaration order; the first index are the values of the layout controllers, which determine the array lengths. -/
inductive AccountsFields : List Img → List (FI w) → List Event → List Event → Prop
  | nil {lens : List Img} : AccountsFields lens [] [] []
  | normal {lens : List Img} {R : RTy} {off : Nat} {img : Img} {fis : List (FI w)} {held made : List Event} : AccountsFields lens fis held made →
      AccountsFields lens (.normal R off img :: fis) (R.dtor img ++ held) made
  | length {lens : List Img} {R : RTy} {off : Nat} {img : Img} {fis : List (FI w)} {held made : List Event} : AccountsFields lens fis held made →
      AccountsFields lens (.length R off img :: fis) (R.dtor img ++ held) made
  | varlen {lens : List Img} {T : VarLen w} {I : Init w} {fis : List (FI w)} {h m held made : List Event} : Accounts T I h m → AccountsFields lens fis held made →
      AccountsFields lens (.varlen T I :: fis) (h ++ held) (m ++ made)
  | array {lens : List Img} {R : RTy} {len : LenFn w} {I : ArrInit} {fis : List (FI w)} {h m held made : List Event} : ArrAccounts R (len lens).toNat I h m →
      AccountsFields lens fis held made → AccountsFields lens (.array R len I :: fis) (h ++ held) (m ++ made)
end

end Varlen
