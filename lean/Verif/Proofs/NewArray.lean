import Verif.Spec.NewArray
import Verif.Proofs.VBox
/-! # Proofs about `new_array` -/
namespace Varlen
variable {w : Nat} {R : RTy}

/-- The state in which the initializer runs: the frame of `new_array` is the newest block. -/
def framed (s : St) (base : Nat) (R : RTy) (N : Nat) : St := s.push ⟨base, N * R.size, R.align, true, fun _ => none⟩

theorem framed_writable {s : St} {base N : Nat} (hb : base % R.align = 0) : Writable R (framed s base R N) ⟨s.next, 0⟩ N := by
  refine ⟨.inr ⟨⟨base, N * R.size, R.align, true, fun _ => none⟩, by simp [framed, St.blk_push], rfl, by simp⟩, ?_⟩
  unfold Aligned St.addr
  simpa [framed, St.blk_push] using hb

theorem framed_same {s : St} {base N : Nat} {b : Nat} (h : s.blk b ≠ none) : (framed s base R N).blk b = s.blk b := by
  rw [framed, St.blk_push, if_neg]
  rintro rfl; exact h s.blk_next

theorem framed_free {s s1 : St} {base N n : Nat} (ht : Touch (framed s base R N) s1 ⟨s.next, 0⟩ n (fun _ => False)) : Restored s (s1.free s.next) := by
  obtain ⟨d, hd, _⟩ := ht.blk s.next (fun h => h) ⟨base, N * R.size, R.align, true, fun _ => none⟩ (by simp [framed, St.blk_push])
  constructor
  · intro b B hB
    have hne : b ≠ s.next := by rintro rfl; rw [St.blk_next] at hB; cases hB
    rw [St.blk_free hd, if_neg hne, ht.blk_eq (fun h => h) hne, framed, St.blk_push, if_neg hne, hB]
  · intro b B hB hl
    rw [St.blk_free hd] at hB
    split at hB
    · cases hB; simp at hl
    · rename_i hne
      rwa [ht.blk_eq (fun h => h) hne, framed, St.blk_push, if_neg hne] at hB

theorem newArray_filled (hR : R.Ok w) {s : St} {base : Nat} {I : ArrInit} {xs : List Img} {ev : List Event} (hb : base % R.align = 0)
    (hx : ∀ x ∈ xs, R.valid x = true)
    (h : Filled R (I.run ⟨⟨s.next, 0⟩, xs.length⟩ (framed s base R xs.length)) (framed s base R xs.length) ⟨s.next, 0⟩ xs ev) :
    ReturnsArray (newArray base R xs.length I s) s xs ev := by
  obtain ⟨s1, e1, e2, e3, e4⟩ := h
  have hw := framed_writable (R := R) (s := s) (N := xs.length) hb
  refine ⟨s1.free s.next, ?_, framed_free e3, by simp [e4, framed]⟩
  have hr := readElems_spec hR xs.length ⟨s.next, 0⟩ s1 (e3.acc (fun h => h) hw.acc) (e3.aligned (fun h => h) hw.aligned) (by rw [e2]; exact hx)
  rw [e2] at hr
  simp only [newArray, bind_apply, getS_apply, Res.bind_ok, setS_apply]
  rw [onUnwind_ok (by exact e1)]
  simp only [bind_apply, Res.bind_ok, hr, getS_apply, setS_apply, pure_apply]

theorem newArray_panicked {s : St} {base N : Nat} {I : ArrInit} {m : PanicMsg} {s1 : St} {ev : List Event} {n : Nat}
    (e1 : I.run ⟨⟨s.next, 0⟩, N⟩ (framed s base R N) = .panic m s1) (e3 : Touch (framed s base R N) s1 ⟨s.next, 0⟩ n (fun _ => False))
    (e4 : s1.log = s.log ++ ev) :
    PanicsWith m (newArray base R N I s) s ev := by
  refine ⟨s1.free s.next, ?_, framed_free e3, by simp [e4]⟩
  simp only [newArray, bind_apply, getS_apply, Res.bind_ok, setS_apply]
  rw [onUnwind_panic (s' := s1) (s'' := s1.free s.next) (by exact e1) (by simp)]
  simp only [Res.bind_panic]

end Varlen
