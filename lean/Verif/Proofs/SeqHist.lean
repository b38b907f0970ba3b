import Verif.Proofs.SeqOps
/-! # The invariant holds after every history -/
namespace Varlen
variable {w : Nat}

/-- The observable entry of an element. -/
def Elem.entry (e : Elem w) : BitVec w × V := (BitVec.ofNat w e.off, e.v)

/-- What every history guarantees. -/
structure HistInv (T : VarLen w) (chk : Bool) (s : St) (q : SeqS w) (h : List (BitVec w × V)) (m : Nat) (t : Bool) (es : List (Elem w)) : Prop where
  inv : SeqInv T chk s q es
  entries : es.map Elem.entry = h
  clean : t = false → Clean T chk s q es
  moved : q.cap.toNat = 0 ∧ m = 0 ∨ m < q.cap.toNat * (T.ALIGN.toNat + if chk then 1 else 0)

theorem SeqInv.new {T : VarLen w} (chk : Bool) (hfit : T.ALIGN.toNat - 1 ≤ isizeMax w) (s : St) : SeqInv T chk s (Seq.new T) [] := by
  refine ⟨⟨by simp [Seq.new], by simp [Seq.new], by simp [Seq.new], by simpa [Seq.new, storageSize_zero] using hfit, ?_⟩, fun _ => rfl, by simp [Seq.new],
    by simp [Seq.new, Packed], by simp [Seq.new], by simp, by simp⟩
  intro k hk
  simp only [Seq.new, BitVec.ofNat_eq_ofNat, BitVec.toNat_ofNat, Nat.zero_mod] at hk
  unfold bitmaskBytes at hk; split at hk <;> omega

theorem align_le_isize {T : VarLen w} (hT : Lawful T) : T.ALIGN.toNat - 1 ≤ isizeMax w := by
  obtain ⟨k, hk, e⟩ := hT.align_pow2
  rw [e]
  unfold isizeMax
  have := Nat.pow_le_pow_right (n := 2) (by omega) (show k ≤ w - 1 by omega)
  omega

theorem Perm.of_map {α β : Type} {f : α → β} {l₁ l₂ : List β} (hp : l₁.Perm l₂) : ∀ L : List α, l₂ = L.map f → ∃ L' : List α, L'.Perm L ∧ l₁ = L'.map f := by
  induction hp with
  | nil => intro L h; exact ⟨L, .refl _, h⟩
  | @cons x l₁ l₂ hp ih =>
    intro L h
    cases L with
    | nil => simp at h
    | cons a L =>
      simp only [List.map_cons, List.cons.injEq] at h
      obtain ⟨L', h1, h2⟩ := ih L h.2
      exact ⟨a :: L', h1.cons a, by simp [h.1, h2]⟩
  | swap x y l =>
    intro L h
    match L, h with
    | [], h => simp at h
    | [a], h => simp at h
    | a :: b :: L, h =>
      simp only [List.map_cons, List.cons.injEq] at h
      exact ⟨b :: a :: L, .swap .., by simp [h.1, h.2.1, h.2.2]⟩
  | trans _ _ ih1 ih2 =>
    intro L h
    obtain ⟨L1, h1, h2⟩ := ih2 L h
    obtain ⟨L2, h3, h4⟩ := ih1 L1 h2
    exact ⟨L2, h3.trans h1, h4⟩

theorem bitmaskBytes_le (chk : Bool) (c : Nat) : bitmaskBytes chk c ≤ c * if chk then 1 else 0 := by
  unfold bitmaskBytes; split <;> simp; omega

/-- Bytes moved by one push. -/
theorem Pushed.moved {T : VarLen w} (hpos : 0 < T.ALIGN.toNat) {chk own ev s s' q q' need m} (hp : Pushed T chk own ev s s' q q' need)
    (hm : q.cap.toNat = 0 ∧ m = 0 ∨ m < q.cap.toNat * (T.ALIGN.toNat + if chk then 1 else 0)) :
    q'.cap.toNat = 0 ∧ m + (s'.copied - s.copied) = 0 ∨ m + (s'.copied - s.copied) < q'.cap.toNat * (T.ALIGN.toNat + if chk then 1 else 0) := by
  rw [hp.copied, hp.cap]
  by_cases hc : need ≤ q.cap.toNat
  · simpa [hc] using hm
  · simp only [hc, if_false, Nat.add_sub_cancel_left]
    have hg : 2 * q.cap.toNat ≤ growCap T.ALIGN.toNat q.cap.toNat need := by unfold growCap; omega
    have hg' : need ≤ growCap T.ALIGN.toNat q.cap.toNat need := by unfold growCap; omega
    have hb := bitmaskBytes_le chk q.cap.toNat
    right
    generalize growCap T.ALIGN.toNat q.cap.toNat need = g at hg hg'
    have hst : storageSize chk T.ALIGN.toNat q.cap.toNat ≤ q.cap.toNat * (T.ALIGN.toNat + if chk then 1 else 0) := by
      unfold storageSize; rw [Nat.mul_add]; omega
    generalize hA : (T.ALIGN.toNat + if chk then 1 else 0) = A at hm hst ⊢
    have hA0 : 0 < A := by omega
    have h2 := Nat.mul_le_mul_right A hg
    rw [Nat.mul_assoc, Nat.two_mul] at h2
    rcases hm with ⟨h0, rfl⟩ | hm
    · rw [h0, storageSize_zero]
      have : 0 < g * A := Nat.mul_pos (by omega) hA0
      omega
    · omega

/-- The bits that are set are those of the offsets where pushes began to write. -/
structure BitsAre (T : VarLen w) (chk : Bool) (s : St) (q : SeqS w) (U : List (BitVec w)) : Prop where
  bits : chk = true → ∀ i, i / 8 < bitmaskBytes chk q.cap.toNat →
    (bitAt s q.ptr (q.cap.toNat * T.ALIGN.toNat) i = true ↔ ∃ o ∈ U, o.toNat = i)
  bound : ∀ o ∈ U, o.toNat < q.cap.toNat

theorem Pushed.cap_le {T : VarLen w} {chk own ev s s'} {q q' : SeqS w} {need} (hp : Pushed T chk own ev s s' q q' need) :
    q.cap.toNat ≤ q'.cap.toNat ∧ need ≤ q'.cap.toNat := by
  rw [hp.cap]
  unfold growCap
  split <;> omega

theorem BitsAre.push {T : VarLen w} {chk : Bool} {s s' : St} {q q' : SeqS w} {own ev need U} (h : BitsAre T chk s q U)
    (hp : Pushed T chk own ev s s' q q' need) (ho : q.occ.toNat < need) : BitsAre T chk s' q' (U ++ [q.occ]) := by
  have hc := hp.cap_le
  refine ⟨fun hchk i hi => ?_, fun o hm => ?_⟩
  · rw [hp.bits hchk i hi]
    simp only [Bool.or_eq_true, Bool.and_eq_true, decide_eq_true_eq, List.mem_append, List.mem_singleton]
    constructor
    · rintro (⟨h1, h2⟩ | h1)
      · obtain ⟨o, h3, h4⟩ := (h.bits hchk i h1).1 h2
        exact ⟨o, .inl h3, h4⟩
      · exact ⟨_, .inr rfl, h1.symm⟩
    · rintro ⟨o, h1 | rfl, rfl⟩
      · have hb := h.bound o h1
        subst hchk
        have := bit_div_lt hb
        exact .inl ⟨this, (h.bits rfl _ this).2 ⟨o, h1, rfl⟩⟩
      · exact .inr rfl
  · simp only [List.mem_append, List.mem_singleton] at hm
    rcases hm with hm | rfl
    · have := h.bound o hm; omega
    · omega

theorem BitsAre.congr {T : VarLen w} {chk : Bool} {s s' : St} {q q' : SeqS w} {U} (h : BitsAre T chk s q U) (hcap : q'.cap = q.cap)
    (hb : q.cap.toNat ≠ 0 → ∀ i, i / 8 < bitmaskBytes chk q.cap.toNat →
      bitAt s' q'.ptr (q.cap.toNat * T.ALIGN.toNat) i = bitAt s q.ptr (q.cap.toNat * T.ALIGN.toNat) i) : BitsAre T chk s' q' U := by
  refine ⟨fun hchk i hi => ?_, fun o ho => by rw [hcap]; exact h.bound o ho⟩
  rw [hcap] at hi ⊢
  by_cases hz : q.cap.toNat = 0
  · rw [hz] at hi; unfold bitmaskBytes at hi; split at hi <;> omega
  · rw [hb hz i hi]; exact h.bits hchk i hi

theorem bv_ofNat_toNat (x : BitVec w) : BitVec.ofNat w x.toNat = x := by simp

theorem HistU.inv {T : VarLen w} (hT : Lawful T) (hw : 8 ≤ w) {chk : Bool} {s q h m t U} (hh : HistU T chk s q h m t U) :
    ∃ es, HistInv T chk s q h m t es ∧ BitsAre T chk s q U := by
  have hpos := hT.align_pow2.pos
  induction hh with
  | new s =>
    refine ⟨[], ⟨SeqInv.new chk (align_le_isize hT) s, rfl, fun _ => ?_, .inl ⟨by simp [Seq.new], rfl⟩⟩, fun _ i hi => ?_, by simp⟩
    · intro i hi
      simp only [Seq.new, BitVec.ofNat_eq_ofNat, BitVec.toNat_ofNat, Nat.zero_mod] at hi
      unfold bitmaskBytes at hi; split at hi <;> omega
    · simp only [Seq.new, BitVec.ofNat_eq_ofNat, BitVec.toNat_ofNat, Nat.zero_mod] at hi
      unfold bitmaskBytes at hi; split at hi <;> omega
  | @push s q h m t U A I v s' q' _ ha hv hr ih =>
    obtain ⟨es, ⟨i1, i2, i3, i4⟩, i5⟩ := ih
    rcases Seq.push_spec hT hw A i1 ha.lawful ha.pre ha.apart ha.nonzero with ⟨s0, e, hd, _⟩ | ⟨l, hl, ⟨v', hv', s'', q'', e, k1, k2, k3, k4⟩ | ⟨hv', m', s'', q'', e, k⟩⟩
    · rw [e] at hr; cases hr
    · rw [e] at hr
      cases hr
      rw [hv] at hv'; cases hv'
      have := units_pos hT.align_pow2.pos (ha.nonzero l hl)
      refine ⟨_, ⟨k1, ?_, fun ht => (i3 ht).push k2 (.inr ⟨v, l, rfl⟩), k2.moved hpos i4⟩, i5.push k2 (by omega)⟩
      simp [i2, Elem.entry, Seq.offset]
    · rw [e] at hr; cases hr
  | @pushPanic s q h m t U A I msg s' q' _ ha hr hne ih =>
    obtain ⟨es, ⟨i1, i2, i3, i4⟩, i5⟩ := ih
    rcases Seq.push_spec hT hw A i1 ha.lawful ha.pre ha.apart ha.nonzero with ⟨s0, e, hd, _⟩ | ⟨l, hl, ⟨v', hv', s'', q'', e, k1, k2, k3, k4⟩ | ⟨hv', m', s'', q'', e, k1, k2, k3, k4, k5⟩⟩
    · rw [e] at hr; cases hr
      exact absurd ⟨rfl, hd.frame _ fun hb => ha.apart (ha.lawful.mods_fp _ hb)⟩ hne
    · rw [e] at hr; cases hr
    · rw [e] at hr
      cases hr
      have := units_pos hT.align_pow2.pos (ha.nonzero l hl)
      exact ⟨es, ⟨k1, i2, fun ht => (i3 ht).push k4 (.inl ⟨rfl, k2⟩), k4.moved hpos i4⟩, i5.push k4 (by omega)⟩
  | @pushRefused s q h m t U A I msg s' _ ha hr hb ih =>
    obtain ⟨es, ⟨i1, i2, i3, i4⟩, i5⟩ := ih
    obtain ⟨k1, k2⟩ := i1.of_same (fun _ => hb) hT
    refine ⟨es, ⟨k1, i2, fun ht i hi hbit => i3 ht i hi ?_, ?_⟩, i5.congr rfl fun hz i _ => bitAt_congr (by rw [k2 hz])⟩
    · rw [← hbit]
      by_cases hc : q.cap.toNat = 0
      · rw [hc] at hi; unfold bitmaskBytes at hi; split at hi <;> omega
      · exact (bitAt_congr (by rw [k2 hc])).symm
    · rcases Seq.push_spec hT hw A i1 ha.lawful ha.pre ha.apart ha.nonzero with ⟨s0, e, hd, _⟩ | ⟨l, hl, ⟨v', hv', s'', q'', e, _⟩ | ⟨hv', m', s'', q'', e, _, _, _, k4, _⟩⟩
      · rw [e] at hr; cases hr
        rw [hd.copied]; simpa using i4
      · rw [e] at hr; cases hr
      · rw [e] at hr; cases hr
        exact k4.moved hpos i4
  | @drain s q h m t U it it' s1 s2 s3 s4 s5 q1 k ps before after rest _ h1 h2 h3 h4 h5 h6 ih =>
    obtain ⟨es, ⟨i1, i2, i3, i4⟩, i5⟩ := ih
    rw [Seq.takeElems_spec hw] at h1
    cases h1
    obtain ⟨it0, cur0, e1, _⟩ := Iter.take_spec hT hw k (i1.iterAt hT)
    rw [e1] at h2; cases h2
    obtain ⟨L', hL, hmap⟩ := Perm.of_map h3 _ rfl
    obtain ⟨L1, zs, rfl, hm1, rfl⟩ := List.append_eq_map_iff.1 hmap
    obtain ⟨xs, ys, rfl, rfl, rfl⟩ := List.append_eq_map_iff.1 hm1.symm
    obtain ⟨_, it1, f1, s1', s2', s3', f2, f3, f4, f5, f6, f7, f8⟩ := Seq.drain_spec hT hw i1 k hL
    rw [e1] at f1; cases f1
    rw [f2] at h4; cases h4
    rw [f3] at h5; cases h5
    rw [f4] at h6; cases h6
    refine ⟨[], ⟨f8, rfl, by simp, i4⟩, i5.congr rfl fun _ i hi => ?_⟩
    have hle := Nat.mul_le_mul_right T.ALIGN.toNat i1.le
    refine bitAt_congr (f7.view (fun h => h) _ ?_)
    right; right
    simp only
    omega
  | @forget s q h m t U it s1 q1 _ h1 ih =>
    obtain ⟨es, ⟨i1, i2, i3, i4⟩, i5⟩ := ih
    rw [Seq.takeElems_spec hw] at h1
    cases h1
    exact ⟨[], ⟨i1.take, rfl, by simp, i4⟩, i5.congr rfl fun _ _ _ => rfl⟩
  | @lent s s' q m U n _ ht hn ih =>
    obtain ⟨es, ⟨i1, i2, i3, i4⟩, i5⟩ := ih
    have : es = [] := List.map_eq_nil_iff.1 i2
    subst this
    have hocc : q.occ.toNat = 0 := i1.packed.symm
    obtain ⟨k1, k2⟩ := i1.frame hT ht (fun h => h) (.inr ⟨by simp [hocc], by simpa using hn⟩)
    exact ⟨[], ⟨k1, rfl, by simp, i4⟩, i5.congr rfl fun _ i _ => bitAt_congr (k2 _)⟩
  | @modify s s' q h1 h2 m t U o v v' p l _ e1 e2 e3 e4 ih =>
    obtain ⟨es, ⟨i1, i2, i3, i4⟩, i5⟩ := ih
    obtain ⟨L1, L2, rfl, rfl, hL2⟩ := List.map_eq_append_iff.1 i2
    obtain ⟨e, L3, rfl, he, rfl⟩ := List.map_eq_cons_iff.1 hL2
    simp only [Elem.entry, Prod.mk.injEq] at he
    have hm : e ∈ L1 ++ e :: L3 := by simp
    obtain ⟨k1, k2, k3⟩ := i1.elem_off hT hm
    rw [Seq.fromOffsetUnchecked_spec hT i1 hm (by rw [← he.1, k2])] at e1
    cases e1
    have e2' : T.calculateLayout (e.at T q.ptr) s = .ok e.l s := hT.calc_ok _ _ _ _ (i1.valid e hm)
    rw [e2'] at e2
    cases e2
    obtain ⟨m1, m2⟩ := i1.modify hT e3 e4
    refine ⟨_, ⟨m1, by simp [Elem.entry, he.1], fun ht i hi hb => ?_, i4⟩, i5.congr rfl fun _ i _ => bitAt_congr (m2 _)⟩
    rw [bitAt_congr (m2 _)] at hb
    rcases i3 ht i hi hb with h | ⟨x, hx, hxo⟩
    · exact .inl h
    · right
      simp only [List.mem_append, List.mem_cons] at hx
      rcases hx with hx | rfl | hx
      · exact ⟨x, by simp [hx], hxo⟩
      · exact ⟨⟨x.off, v', x.l⟩, by simp, hxo⟩
      · exact ⟨x, by simp [hx], hxo⟩
  | @other s s' q h m t U _ hs ih =>
    obtain ⟨es, ⟨i1, i2, i3, i4⟩, i5⟩ := ih
    obtain ⟨k1, k2⟩ := i1.of_same (fun _ => hs _ rfl) hT
    refine ⟨es, ⟨k1, i2, fun ht i hi hb => i3 ht i hi ?_, i4⟩, i5.congr rfl fun hz i _ => bitAt_congr (by rw [k2 hz])⟩
    rw [← hb]
    by_cases hc : q.cap.toNat = 0
    · rw [hc] at hi; unfold bitmaskBytes at hi; split at hi <;> omega
    · exact (bitAt_congr (by rw [k2 hc])).symm

section
variable {T : VarLen w} {chk : Bool} {s s' : St} {q q' : SeqS w} {h : List (BitVec w × V)} {m : Nat} {t : Bool}

theorem Hist.inv (hT : Lawful T) (hw : 8 ≤ w) (hh : Hist T chk s q h m t) : ∃ es, HistInv T chk s q h m t es := by
  obtain ⟨U, hh⟩ := hh
  obtain ⟨es, i, _⟩ := hh.inv hT hw
  exact ⟨es, i⟩

/-! The constructors, for `Hist`. -/

theorem Hist.new (s : St) : Hist T chk s (Seq.new T) [] 0 false := ⟨_, .new s⟩

theorem Hist.push (A : Allocator) {I : Init w} {v : V} (hh : Hist T chk s q h m t) (ha : PushArg T I s q) (hv : I.val = some v)
    (e : Seq.push A chk T I (s, q) = .ok () (s', q')) : Hist T chk s' q' (h ++ [(Seq.offset q, v)]) (m + (s'.copied - s.copied)) t := by
  obtain ⟨U, hh⟩ := hh
  exact ⟨_, hh.push A ha hv e⟩

theorem Hist.pushPanic (A : Allocator) {I : Init w} {msg : PanicMsg} (hh : Hist T chk s q h m t) (ha : PushArg T I s q)
    (e : Seq.push A chk T I (s, q) = .panic msg (s', q')) : Hist T chk s' q' h (m + (s'.copied - s.copied)) t := by
  obtain ⟨U, hh⟩ := hh
  by_cases hne : q' = q ∧ s'.blk q.ptr.blk = s.blk q.ptr.blk
  · obtain ⟨rfl, hb⟩ := hne
    exact ⟨_, hh.pushRefused A ha e hb⟩
  · exact ⟨_, hh.pushPanic A ha e hne⟩

theorem Hist.drain {it it' : IterS w} {s1 s2 s3 s4 s5 : St} {q1 : SeqS w} (k : Nat) {ps before after rest : List Ptr} (hh : Hist T chk s q h m t)
    (h1 : Seq.takeElems chk T (s, q) = .ok it (s1, q1)) (h2 : Iter.take T k it s1 = .ok (ps, it') s2) (h3 : (before ++ after ++ rest).Perm ps)
    (h4 : dropEach T before s2 = .ok () s3) (h5 : OwnedElems.drop T it' s3 = .ok () s4) (h6 : dropEach T after s4 = .ok () s5) :
    Hist T chk s5 q1 [] m true := by
  obtain ⟨U, hh⟩ := hh
  exact ⟨_, hh.drain k h1 h2 h3 h4 h5 h6⟩

theorem Hist.forget {it : IterS w} {s1 : St} {q1 : SeqS w} (hh : Hist T chk s q h m t) (h1 : Seq.takeElems chk T (s, q) = .ok it (s1, q1)) :
    Hist T chk s1 q1 [] m true := by
  obtain ⟨U, hh⟩ := hh
  exact ⟨_, hh.forget h1⟩

theorem Hist.lent {n : Nat} (hh : Hist T chk s q [] m true) (ht : Touch s s' q.ptr n (fun _ => False)) (hn : n ≤ q.cap.toNat * T.ALIGN.toNat) : Hist T chk s' q [] m true := by
  obtain ⟨U, hh⟩ := hh
  exact ⟨_, hh.lent ht hn⟩

theorem Hist.modify {h1 h2 : List (BitVec w × V)} {o : BitVec w} {v v' : V} {p : Ptr} {l : Layout w} (hh : Hist T chk s q (h1 ++ (o, v) :: h2) m t)
    (e1 : Seq.fromOffsetUnchecked T q o s = .ok p s) (e2 : T.calculateLayout p s = .ok l s) (e3 : Touch s s' p l.size.toNat (fun _ => False))
    (e4 : T.Rep v' l (viewAt s' p)) : Hist T chk s' q (h1 ++ (o, v') :: h2) m t := by
  obtain ⟨U, hh⟩ := hh
  exact ⟨_, hh.modify e1 e2 e3 e4⟩

theorem Hist.other (hh : Hist T chk s q h m t) (hs : Same s s' (fun b => b = q.ptr.blk)) : Hist T chk s' q h m t := by
  obtain ⟨U, hh⟩ := hh
  exact ⟨_, hh.other hs⟩
end

end Varlen
