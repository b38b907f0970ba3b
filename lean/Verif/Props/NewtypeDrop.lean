import Verif.Model.NewtypeDrop
import Verif.Proofs.LibType
import Verif.Proofs.Newtype
import Verif.Props.Seq
import Verif.Props.Boxes
import Verif.Props.SeqDemo
import Verif.Props.Dispatch
/-! # C77: a destructor that the user writes for a newtype -/
namespace Varlen
variable {w : Nat}

/-- Bytes of an object, as the only allocation of a state. -/
private theorem placed {T : VarLen w} (hT : Lawful T) {v : V} {l : Layout w} {o : View} (h : T.Rep v l o) : ∃ s p, Valid T s p v l := by
  refine ⟨⟨[⟨T.ALIGN.toNat, l.size.toNat, T.ALIGN.toNat, true, o⟩], [], 0⟩, ⟨1, 0⟩, Or.inr ⟨_, rfl, rfl, by simp⟩, by simp [Aligned, St.addr, St.blk], ?_⟩
  exact hT.rep_ext v l o _ h fun i _ => by simp [viewAt, St.blk]

/-- The printed `vdrop` destroys the objects of the newtype (runs the user's destructor, and then those of the inner object) exactly if the user's destructor has no effects. -/
theorem C77_newtype_partial {T : VarLen w} (hT : Lawful T) (own : V → List Event) :
    Lawful (NewtypeDrop T own) ↔ ∀ v l o, T.Rep v l o → own v = [] := by
  have hn := Newtype.lawful hT
  constructor
  · intro h v l o hr
    obtain ⟨s, p, hv⟩ := placed hT hr
    obtain ⟨s1, e1, _, l1, _⟩ := h.vdrop_ok s p v l ⟨hv.acc, hv.aligned, hv.rep, trivial⟩
    obtain ⟨s2, e2, _, l2, _⟩ := hn.vdrop_ok s p v l ⟨hv.acc, hv.aligned, hv.rep, trivial⟩
    have e : Res.ok () s1 = Res.ok () s2 := e1.symm.trans e2
    injection e with _ e
    rw [← e, l1] at l2
    have := List.append_cancel_left l2
    simpa [NewtypeDrop, Newtype, NewtypeInv] using this
  · intro h
    refine ⟨hn.align_pow2, hn.head_align, hn.rep_ext, hn.rep_unique, hn.head_le, fun s p v l hv => hn.calc_ok s p v l ⟨hv.acc, hv.aligned, hv.rep⟩, fun s p v l hv => ?_, fun h0 v l o hr => ?_⟩
    · obtain ⟨s', e, t, hl, hc⟩ := hn.vdrop_ok s p v l ⟨hv.acc, hv.aligned, hv.rep⟩
      refine ⟨s', e, t, hl.trans ?_, hc⟩
      show _ = _ ++ (own v ++ T.drops v)
      rw [h v l _ hv.rep.1]; rfl
    · show own v ++ T.drops v = []
      rw [h v l _ hr.1]
      exact hn.no_vdrop h0 v l o hr

/-- The containers destroy an object of the newtype without running the user's destructor, for every inner type of the library and every destructor: all that runs are the destructors of the inner object. -/
theorem C77_box_ignores {T : VarLen w} (hT : LibType T) (own : V → List Event) {s : St} {p : Ptr} {v : V} {l : Layout w} (h : BoxHas (NewtypeDrop T own) s p v l) :
    ∃ s', VBox.drop (NewtypeDrop T own) p s = .ok () s' ∧ s'.log = s.log ++ T.drops v ∧ Freed s' p.blk := by
  obtain ⟨s', h1, h2, _, _, h4⟩ := VBox.drop_spec (Newtype.lawful hT.lawful) (s := s) (p := p) (v := v) (l := l) ⟨⟨h.valid.acc, h.valid.aligned, h.valid.rep⟩, h.owns, h.fits⟩
  exact ⟨s', h1, h2, h4⟩

/-- The same for `Owned`. -/
theorem C77_owned_ignores {T : VarLen w} (hT : LibType T) (own : V → List Event) {s : St} {p : Ptr} {v : V} {l : Layout w} (h : Valid (NewtypeDrop T own) s p v l) :
    ∃ s', Owned.drop (NewtypeDrop T own) p s = .ok () s' ∧ s'.log = s.log ++ T.drops v := by
  obtain ⟨s', h1, _, h3, _⟩ := Owned.drop_spec (Newtype.lawful hT.lawful) (s := s) (p := p) (v := v) (l := l) ⟨h.acc, h.aligned, h.rep⟩
  exact ⟨s', h1, h3⟩

/-- The same for a sequence, after every history of it. -/
theorem C77_seq_ignores {T : VarLen w} (hT : LibType T) (own : V → List Event) (hw : 8 ≤ w) {chk : Bool} {s : St} {q : SeqS w} {h : List (BitVec w × V)} {m : Nat} {t : Bool}
    (hh : Hist (Newtype T) chk s q h m t) :
    ∃ s' q', Seq.drop chk (NewtypeDrop T own) (s, q) = .ok () (s', q') ∧ s'.log = s.log ++ h.flatMap (fun e => T.drops e.2) := by
  obtain ⟨es, i, rfl, _, _⟩ := hh.inv (Newtype.lawful hT.lawful) hw
  have hn : Lawful (NewtypeDrop T fun _ => []) := (C77_newtype_partial hT.lawful _).2 fun _ _ _ _ => rfl
  obtain ⟨s', q', e, h1, _⟩ := Seq.drop_spec hn hw (s := s) (q := q) (es := es) (chk := chk)
    ⟨⟨i.store.owns, i.store.aligned, i.store.space, i.store.fits, i.store.bits⟩, i.dang, i.len, i.packed, i.le, fun e he => ⟨(i.valid e he).acc, (i.valid e he).aligned, (i.valid e he).rep⟩, i.marked⟩
  refine ⟨s', q', (Eq.trans ?_ e), by rw [h1, List.flatMap_map]; rfl⟩
  have : ∀ n it, OwnedElems.dropLoop (NewtypeDrop T own) n it = OwnedElems.dropLoop (NewtypeDrop T fun _ => []) n it := by
    intro n
    induction n with
    | zero => intro it; rfl
    | succ n ih =>
      intro it
      simp only [OwnedElems.dropLoop]
      congr 1
      funext r
      obtain ⟨a, b⟩ := r
      cases a with
      | none => rfl
      | some t => exact congrArg (fun k => Owned.drop (NewtypeDrop T own) t >>= k) (funext fun _ => ih b)
  have h2 : ∀ it, OwnedElems.drop (NewtypeDrop T own) it = OwnedElems.drop (NewtypeDrop T fun _ => []) it := fun it => by
    simp only [OwnedElems.drop, this]
    rfl
  have h3 : Seq.takeElems chk (NewtypeDrop T own) = Seq.takeElems chk (NewtypeDrop T fun _ => []) := rfl
  simp only [Seq.drop, h2, h3]
  rfl

namespace Demo
/-- `impl Drop for Outer { fn drop(&mut self) { … } }`, with one observable effect. -/
def ownDrop : V → List Event := fun _ => [99]

/-- `let b = VBox::new(…); drop(b)` -/
def boxedOnce (T : VarLen 64) (I : Init 64) : M Unit := do
  let p ← VBox.new alloc T I
  VBox.drop T p
end Demo

open Demo in
/-- The claim is false: a program that makes an object of such a newtype in a box, and one that makes it in an arena, and drops it. The destructors of the fields run, that of the user does not; destroying the value would run all
five. -/
theorem C77_drop_not_run : ¬ Lawful (NewtypeDrop S ownDrop) ∧
    (NewtypeDrop S ownDrop).drops (.node [.leaf (d4 7), .leaf (encLE 1 3), .arr [d4 1, d4 2], .arr [encLE 1 10, encLE 1 11, encLE 1 12], .arr [d4 5]]) = [99, 7, 1, 2, 5] ∧
    (okOf (boxedOnce (NewtypeDrop S ownDrop) (Newtype.init (sInit 7 3 [1, 2] [10, 11, 12] [5])) st0)).map (fun r => r.2.log) = some [7, 1, 2, 5] ∧
    (okOf (ownedOnce (NewtypeDrop S ownDrop) (Newtype.init (sInit 7 3 [1, 2] [10, 11, 12] [5])) st0)).map (fun r => r.2.log) = some [7, 1, 2, 5] := by
  refine ⟨fun h => ?_, by decide +kernel, by decide +kernel, by decide +kernel⟩
  have := (C77_newtype_partial S_lib.lawful _).1 h _ _ _ sSt_valid.rep
  exact absurd this (by decide)

open Demo in
/-- `C77_box_ignores` applies to the boxes of such a newtype. -/
example : ∃ s p v l, BoxHas (NewtypeDrop S ownDrop) s p v l :=
  let ⟨s, p, v, l, h, _⟩ := box_has
  ⟨s, p, v, l, ⟨h.valid.acc, h.valid.aligned, h.valid.rep, trivial⟩, h.owns, h.fits⟩

open Demo in
/-- `C77_seq_ignores` applies to a sequence with an element. -/
example : ∃ s q v m, Hist (Newtype ArrT) true s q [(0, v)] m false ∧ ArrT.drops v ≠ [] := by
  have e := run_unit (Seq.push alloc true (Newtype ArrT) (Newtype.init (arrInit [1, 2, 3]))) (st0, Seq.new (Newtype ArrT)) (by decide +kernel)
  have a := arr_pushArg [1, 2, 3] st0 (Seq.new ArrT) (by decide +kernel)
  exact ⟨_, _, elem [1, 2, 3], _, ⟨_, HistU.push alloc (v := elem [1, 2, 3]) (HistU.new st0) ⟨Newtype.init_lawful a.lawful, a.pre, a.apart, a.nonzero⟩ rfl e⟩, by decide +kernel⟩

/-- A destructor without effects: the contract is kept. -/
example : Lawful (NewtypeDrop Demo.S fun _ => []) := (C77_newtype_partial Demo.S_lib.lawful _).2 fun _ _ _ _ => rfl

end Varlen
