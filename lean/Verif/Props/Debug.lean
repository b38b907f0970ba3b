import Verif.Proofs.Debug
import Verif.Proofs.LibType
import Verif.Props.SeqDemo
/-!
# C54: debug and release builds agree

In a build with overflow checks and debug assertions (`Varlen.Dbg`, Model/Debug.lean), no arithmetic of the library overflows and no debug assertion fails, after any history: each
operation does exactly what it does in a release build.
-/
namespace Varlen
variable {w : Nat} {T : VarLen w} {chk : Bool} {s : St} {q : SeqS w} {h : List (BitVec w × V)} {m : Nat} {t : Bool}

/-- `push`, whatever its outcome. -/
theorem C54_push (hT : LibType T) (hw : 8 ≤ w) (hh : Hist T chk s q h m t) (A : Allocator) {I : Init w} (ha : PushArg T I s q) :
    Dbg.push A chk T I (s, q) = Seq.push A chk T I (s, q) := by
  obtain ⟨es, i⟩ := hh.inv hT.lawful hw
  exact Dbg.push_eq hT.lawful hw A i.inv ha.lawful ha.pre ha.nonzero

/-- `extend` with any number of items. -/
theorem C54_extend (hT : LibType T) (hw : 8 ≤ w) (hh : Hist T chk s q h m t) (A : Allocator) (own : Bool) {is : List (Init w)} (ha : ExtendArg T is s q) :
    Dbg.extend A chk T own is (s, q) = Seq.extend A chk T own is (s, q) := Dbg.extend_eq hT.lawful hw A own is hh ha

/-- Dropping the sequence. -/
theorem C54_drop (hT : LibType T) (hw : 8 ≤ w) (hh : Hist T chk s q h m t) : Dbg.drop chk T (s, q) = Seq.drop chk T (s, q) := by
  obtain ⟨es, i⟩ := hh.inv hT.lawful hw
  exact Dbg.drop_eq hT.lawful hw i.inv

/-- `collect` and `seq![…]`. -/
theorem C54_from_iter (hT : LibType T) (hw : 8 ≤ w) (A : Allocator) (s : St) (q0 : SeqS w) (own : Bool) {is : List (Init w)} (ha : ExtendArg T is s (Seq.new T)) :
    Dbg.fromIter A chk T own is (s, q0) = Seq.fromIter A chk T own is (s, q0) := by
  have hn : Hist T chk s (Seq.new T) [] 0 false := Hist.new s
  unfold Dbg.fromIter Seq.fromIter
  simp only [bind_apply, putQ_apply, Res.bind_ok]
  unfold onUnwind
  rw [C54_extend hT hw hn A own ha]
  rcases Hist.extend_spec hT.lawful hw A own is hn ha with ⟨s', q', h', m', e, _⟩ | ⟨n, I, ev, msg, s', q', h', m', e, _, _, hh, _⟩
  · rw [e]
  · rw [e]
    simp only
    rw [C54_drop hT hw hh]

/-- `take_elems`; the iterators (any number of calls of `next`, on any of the three); and dropping the iterator of `take_elems`. -/
theorem C54_iterate (hT : LibType T) (hw : 8 ≤ w) (hh : Hist T chk s q h m t) :
    Dbg.takeElems chk T (s, q) = Seq.takeElems chk T (s, q) ∧ (∀ k (it : IterS w), Dbg.take T k it = Iter.take T k it) ∧ (∀ it : IterS w, Dbg.dropElems T it = OwnedElems.drop T it) := by
  obtain ⟨es, i⟩ := hh.inv hT.lawful hw
  exact ⟨Dbg.takeElems_eq hT.lawful hw i.inv, Dbg.take_eq hT.lawful hw, Dbg.dropElems_eq hT.lawful hw⟩

/-- The safe indexing functions, for every offset, valid or not. -/
theorem C54_index (hT : LibType T) (hw : 8 ≤ w) (hh : Hist T true s q h m t) (o : BitVec w) :
    Dbg.isOffsetValid T q o s = Seq.isOffsetValid T q o s ∧ Dbg.fromOffset T q o s = Seq.fromOffset T q o s := by
  obtain ⟨es, i⟩ := hh.inv hT.lawful hw
  exact ⟨by rw [Dbg.isOffsetValid_eq hT.lawful hw i.inv], by rw [Dbg.fromOffset_eq hT.lawful hw i.inv]⟩

/-- `from_offset_unchecked`, for the offsets its safety contract allows: those of elements. -/
theorem C54_from_offset_unchecked (hT : LibType T) (hw : 8 ≤ w) (hh : Hist T chk s q h m t) {o : BitVec w} {v : V} (ho : (o, v) ∈ h) :
    Dbg.fromOffsetUnchecked T q o s = Seq.fromOffsetUnchecked T q o s := by
  obtain ⟨es, i⟩ := hh.inv hT.lawful hw
  rw [← i.entries, List.mem_map] at ho
  obtain ⟨e, he, heq⟩ := ho
  obtain ⟨k1, k2, _⟩ := i.inv.elem_off hT.lawful he
  simp only [Elem.entry, Prod.mk.injEq] at heq
  rw [Dbg.fromOffsetUnchecked_eq hT.lawful i.inv (by rw [← heq.1, k2]; exact k1)]

/-- `offset_of`, for any reference (a reference to a `T` is aligned to `T::ALIGN`): the same answer, if the sequence has storage. If it has none, there are no elements and both builds panic, a debug
build perhaps with another message: its assertion compares with the address in an empty sequence, which is aligned for the head of `T` only. -/
theorem C54_offset_of (hT : LibType T) (hw : 8 ≤ w) (hh : Hist T chk s q h m t) {p : Ptr} (hp : Aligned s p T.ALIGN.toNat) :
    (Seq.capacityInOffsets q ≠ 0 → Dbg.offsetOf T q p s = Seq.offsetOf T q p s) ∧
    (Seq.capacityInOffsets q = 0 → Seq.offsetOf T q p s = .panic .outOfBounds s ∧ ∃ msg, Dbg.offsetOf T q p s = .panic msg s) := by
  obtain ⟨es, i⟩ := hh.inv hT.lawful hw
  refine ⟨fun hc => Dbg.offsetOf_eq hT.lawful hw i.inv hp fun h0 => hc (BitVec.eq_of_toNat_eq (by simpa [Seq.capacityInOffsets] using h0)), fun hc => ?_⟩
  have h0 : q.cap.toNat = 0 := by rw [show q.cap = 0 from hc]; simp
  have ho : q.occ.toNat = 0 := by have := i.inv.le; omega
  have hr : Seq.offsetOf T q p s = .panic .outOfBounds s := by
    unfold Seq.offsetOf; simp only; rw [if_pos (by omega)]
  refine ⟨hr, ?_⟩
  unfold Dbg.offsetOf
  simp only
  split
  · exact ⟨_, if_pos (by omega)⟩
  · exact ⟨_, rfl⟩

/-- `VBox::new`: its debug assertion never fails, and evaluating it has no effect. -/
theorem C54_vbox_new (A : Allocator) {I : Init w} (h : LibInit T I) {s : St} (hp : I.pre s) : VBox.new A T I s = VBox.newRelease A T I s :=
  VBox.new_release A h.lib.1.lawful h.lib.2 hp

/-- The remaining plain arithmetic of the library, `ALIGN - 1` and `align_of::<R>() - 1`, never underflows. -/
theorem C54_align_minus_one (hT : LibType T) {R : RTy} (hR : R.Ok w) (hw : 8 ≤ w) (s : St) :
    Dbg.subP T.ALIGN 1 s = .ok (T.ALIGN - 1) s ∧ Dbg.subP (R.alignOf w) 1 s = .ok (R.alignOf w - 1) s :=
  ⟨by rw [Dbg.subP_ok (Dbg.one_le_align hw hT.lawful.align_pow2)]; rfl, by rw [Dbg.subP_ok (Dbg.one_le_align hw hR.pow2)]; rfl⟩

namespace Demo
/-- The hypotheses are met, and the debug functions are not trivial: pushing a second element in a debug build yields the state σ2 (offset 6 afterwards), while marking an offset in a storage whose size
overflows panics there. -/
example : Dbg.push alloc true ArrT (arrInit [4]) σ1 = .ok () σ2 ∧ Seq.len σ2.2 = 2 := by
  obtain ⟨m, h1⟩ := hist1U
  rw [show σ1 = (σ1.1, σ1.2) from rfl, C54_push ArrT_lib (by omega) ⟨_, h1⟩ alloc (arr_pushArg _ _ _ (by decide +kernel))]
  exact ⟨run_unit (pushD [4]) σ1 (by decide +kernel), by decide +kernel⟩

example : Dbg.markOffsetValid true (4 : BitVec 64) ⟨1, 0⟩ (2 ^ 62 : BitVec 64) 0 st0 = .panic .overflow st0 := by
  have : ¬ (2 ^ 62 : BitVec 64).toNat * (4 : BitVec 64).toNat < 2 ^ 64 := by decide +kernel
  simp only [Dbg.markOffsetValid, if_true, Dbg.mulP, if_neg this]
  rfl
end Demo

end Varlen
