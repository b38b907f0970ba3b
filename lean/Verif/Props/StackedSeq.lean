import Verif.Proofs.StackedFrame
import Verif.Proofs.SeqHist
import Verif.Props.StackedBorrows
import Verif.Props.SeqDemo
/-!
# C76: sequences and construction under Stacked Borrows

Making objects, in boxes or in sequences, and growing sequences is never undefined behaviour: it goes through the pointer to the allocation. Iterating over a sequence, or dropping it, computes layouts through references to heads.
-/
namespace Varlen.SB
variable {w : Nat}

theorem elems_of {T : Ty w} {s : St} {p : Ptr} {fin : Nat} (ha : 0 < T.sem.ALIGN.toNat) : ∀ (es : List (Elem w)) {cur : Nat}, Packed T.sem.ALIGN.toNat cur es fin →
    (∀ e ∈ es, Valid T.sem s (p.add (e.off * T.sem.ALIGN.toNat)) e.v e.l) → ∀ n, fin * T.sem.ALIGN.toNat ≤ n → Elems T (es.map fun e => (e.off * T.sem.ALIGN.toNat, e.l)) (cur * T.sem.ALIGN.toNat) n
  | [], cur, h, _, n, hn => by simp only [Packed] at h; subst h; exact hn
  | e :: es, cur, h, hv, n, hn => by
    obtain ⟨h1, h2, h3⟩ := h
    have ih := elems_of (p := p) (s := s) ha es h3 (fun e he => hv e (by simp [he])) n hn
    have hu := units_mul_ge ha e.l.size.toNat
    have hm : (cur + units T.sem.ALIGN.toNat e.l.size.toNat) * T.sem.ALIGN.toNat = cur * T.sem.ALIGN.toNat + units T.sem.ALIGN.toNat e.l.size.toNat * T.sem.ALIGN.toNat := Nat.add_mul ..
    refine ⟨by rw [h1]; exact Nat.le_refl _, ⟨e.v, _, (hv e (by simp)).rep⟩, ?_⟩
    show Elems T (es.map _) (e.off * T.sem.ALIGN.toNat + e.l.size.toNat) n
    have hlow : ∀ (es : List (Nat × Layout w)) (c c' : Nat), c' ≤ c → Elems T es c n → Elems T es c' n := by
      intro es c c' hc he
      cases es with
      | nil => exact Nat.le_trans hc he
      | cons e es => exact ⟨Nat.le_trans hc he.1, he.2⟩
    exact hlow _ _ _ (by rw [h1]; omega) ih

/-- The elements of a sequence, after any history. -/
theorem elems_of_hist {T : Ty w} (hT : TyOk T) (hw : 8 ≤ w) {chk : Bool} {s : St} {q : SeqS w} {h : List (BitVec w × V)} {m : Nat} {k : Bool} (hh : Hist T.sem chk s q h m k) {es : List (Nat × Layout w)} (hp : Places T s q h es) :
    Elems T es 0 (seqBytes chk T.sem.ALIGN.toNat q.cap.toNat) := by
  have hL := hT.lib.lawful
  obtain ⟨es0, i1, rfl, _, _⟩ := Hist.inv hL hw hh
  have ha := hL.align_pow2.pos
  have hle : q.occ.toNat * T.sem.ALIGN.toNat ≤ seqBytes chk T.sem.ALIGN.toNat q.cap.toNat := Nat.le_trans (Nat.mul_le_mul_right _ i1.le) (Nat.le_add_right ..)
  have h0 := elems_of ha es0 i1.packed i1.valid _ hle
  rw [Nat.zero_mul] at h0
  suffices es = es0.map fun e => (e.off * T.sem.ALIGN.toNat, e.l) by rw [this]; exact h0
  obtain ⟨hlen, hat⟩ := hp
  rw [List.length_map] at hlen
  refine List.ext_getElem? fun i => ?_
  by_cases hi : i < es0.length
  · have h2 := hat i (BitVec.ofNat w (es0[i]).off) (es0[i]).v (es[i]'(by omega)) (by simp [Elem.entry, hi]) (by simp [hlen, hi])
    obtain ⟨h3, h4⟩ := h2
    rw [(i1.elem_off hL (List.getElem_mem hi)).2.1] at h3
    have h5 := i1.valid _ (List.getElem_mem hi)
    rw [h3] at h4
    have h6 := (hL.rep_unique _ _ _ _ _ h4.rep h5.rep).2
    rw [List.getElem?_eq_getElem (by omega), List.getElem?_map, List.getElem?_eq_getElem hi, Option.map_some]
    exact congrArg some (Prod.ext h3 h6)
  · rw [List.getElem?_eq_none (by omega), List.getElem?_eq_none (by simp; omega)]

/-- There are such elements. -/
theorem places_exist {T : Ty w} (hT : TyOk T) (hw : 8 ≤ w) {chk : Bool} {s : St} {q : SeqS w} {h : List (BitVec w × V)} {m : Nat} {k : Bool} (hh : Hist T.sem chk s q h m k) : ∃ es, Places T s q h es := by
  have hL := hT.lib.lawful
  obtain ⟨es0, i1, rfl, _, _⟩ := Hist.inv hL hw hh
  refine ⟨es0.map fun e => (e.off * T.sem.ALIGN.toNat, e.l), by simp, fun i o v e h1 h2 => ?_⟩
  rw [List.getElem?_map, Option.map_eq_some_iff] at h1 h2
  obtain ⟨e1, he1, h1⟩ := h1
  obtain ⟨e2, he2, h2⟩ := h2
  rw [he1] at he2
  injection he2 with he2
  subst he2 h2
  simp only [Elem.entry, Prod.mk.injEq] at h1
  obtain ⟨rfl, rfl⟩ := h1
  have hm := List.mem_of_getElem? he1
  exact ⟨by rw [(i1.elem_off hL hm).2.1], i1.valid _ hm⟩

section
variable {T : Ty w} (hT : TyOk T) (hw : 8 ≤ w) {chk : Bool} {s : St} {q : SeqS w} {h : List (BitVec w × V)} {m : Nat} {k : Bool} (hh : Hist T.sem chk s q h m k) {es : List (Nat × Layout w)} (hp : Places T s q h es)
include hT hw hh hp

/-- Iterating over a sequence, after any history: fine if the sequence is empty or no `#[varlen]` field has bytes in its head, and then all the references are good to the end; otherwise undefined. -/
theorem C76_iter_partial {σ : Stacks} (hσ : σ.Ok) {t : Nat} (ht : Allocated σ t 0 (seqBytes chk T.sem.ALIGN.toNat q.cap.toNat)) :
    (Headless T ∨ h = [] → ∃ rs σ', iterAll (iterNext T t) es σ = .ok (rs, σ') ∧ rs.length = h.length ∧
      ∀ (i : Nat) (r : Nat) (e : Nat × Layout w), rs[i]? = some r → es[i]? = some e → CanRead σ' r e.1 T.sem.headSize) ∧
    (¬ (Headless T ∨ h = []) → Undefined (iterAll (iterNext T t) es) σ) := by
  have he := elems_of_hist hT hw hh hp
  have hnil : es = [] ↔ h = [] := by rw [← List.length_eq_zero_iff, hp.1, List.length_eq_zero_iff]
  have h1 := iterAll_does (T := T) (next := iterNext T t) (t := t) (Q := fun σ r lo => Clean σ r lo T.sem.headSize) (c := Headless T)
    (fun σ σ' r lo fin hL hl hc => hL.clean _ _ _ hl hc) (fun l hl => tyOk_head_le hT hl) (fun lo l σ hl hσ ha hn => iterNext_does hT hl hσ ha hn) es he hσ ht
  rw [hnil] at h1
  refine ⟨fun hc => ?_, h1.2⟩
  obtain ⟨rs, σ', e1, _, _, _, e2, e3⟩ := h1.1 hc
  exact ⟨rs, σ', e1, e2.trans hp.1, fun i r e hr he => (e3 i r e hr he).canRead⟩

/-- The same for `iter_mut`: then all the references are good for writing to the end. -/
theorem C76_iter_mut_partial {σ : Stacks} (hσ : σ.Ok) {t : Nat} (ht : Allocated σ t 0 (seqBytes chk T.sem.ALIGN.toNat q.cap.toNat)) (U : Unpins w) :
    (Headless T ∨ h = [] → ∃ rs σ', iterAll (iterMutNext U T t) es σ = .ok (rs, σ') ∧ rs.length = h.length ∧
      ∀ (i : Nat) (r : Nat) (e : Nat × Layout w), rs[i]? = some r → es[i]? = some e → CanWrite σ' r e.1 T.sem.headSize) ∧
    (¬ (Headless T ∨ h = []) → Undefined (iterAll (iterMutNext U T t) es) σ) := by
  have he := elems_of_hist hT hw hh hp
  have hnil : es = [] ↔ h = [] := by rw [← List.length_eq_zero_iff, hp.1, List.length_eq_zero_iff]
  have h1 := iterAll_does (T := T) (next := iterMutNext U T t) (t := t) (Q := fun σ r lo => CanWrite σ r lo T.sem.headSize) (c := Headless T)
    (fun σ σ' r lo fin hL hl hc => hL.write _ _ _ hl hc) (fun l hl => tyOk_head_le hT hl) (fun lo l σ hl hσ ha hn => iterMutNext_does hT hl hσ ha hn) es he hσ ht
  rw [hnil] at h1
  refine ⟨fun hc => ?_, h1.2⟩
  obtain ⟨rs, σ', e1, _, _, _, e2, e3⟩ := h1.1 hc
  exact ⟨rs, σ', e1, e2.trans hp.1, e3⟩

/-- The reference to an element found by its offset is always fine. -/
theorem C76_from_offset_partial {σ : Stacks} (hσ : σ.Ok) {t : Nat} (ht : Allocated σ t 0 (seqBytes chk T.sem.ALIGN.toNat q.cap.toNat)) (U : Unpins w) {e : Nat × Layout w} (hm : e ∈ es) :
    (∃ r σ', fromOffset T t e.1 σ = .ok (r, σ') ∧ CanRead σ' r e.1 T.sem.headSize) ∧ ∃ r σ', fromOffsetMut U T t e.1 σ = .ok (r, σ') ∧ CanWrite σ' r e.1 T.sem.headSize := by
  obtain ⟨_, h2, h3⟩ := (elems_of_hist hT hw hh hp).lays e hm
  have hh := tyOk_head_le hT h3
  have hc := (ht.sub (lo' := e.1) (n' := T.sem.headSize) (by omega) (by omega)).canWrite
  obtain ⟨σ1, e1, _, _, _, c1, _⟩ := retag_shr hσ hc.canRead
  obtain ⟨σ2, e2, _, _, _, c2, _⟩ := retag_mut (u := U.ty T) hσ hc
  exact ⟨⟨_, σ1, e1, c1.canRead⟩, _, σ2, e2, c2⟩

/-- Dropping a sequence: fine exactly if it has no storage, or there is nothing to destroy, or the layouts of all elements can be computed and destroying them concerns heads only. -/
theorem C76_seq_drop_partial {σ : Stacks} (hσ : σ.Ok) {t : Nat} (ht : Allocated σ t 0 (seqBytes chk T.sem.ALIGN.toNat q.cap.toNat)) (U : Unpins w) :
    let ok := (T.sem.headNeedsDrop = false ∧ T.sem.NEEDS_VDROP = false) ∨ h = [] ∨ (Headless T ∧ ∀ e ∈ es, Idle T e.2)
    (ok → Fine (seqDrop U T chk t q.cap.toNat (seqBytes chk T.sem.ALIGN.toNat q.cap.toNat) es) σ) ∧
    (¬ ok → Undefined (seqDrop U T chk t q.cap.toNat (seqBytes chk T.sem.ALIGN.toNat q.cap.toNat) es) σ) := by
  intro ok
  have he := elems_of_hist hT hw hh hp
  have hnil : es = [] ↔ h = [] := by rw [← List.length_eq_zero_iff, hp.1, List.length_eq_zero_iff]
  have h1 := seqDrop_does (U := U) (checked := chk) (cap := q.cap.toNat) hT he hσ ht
  have hcap : q.cap.toNat = 0 → h = [] := by
    intro h0
    obtain ⟨es0, i1, rfl, _, _⟩ := Hist.inv hT.lib.lawful hw hh
    have := Packed.length_le hT.lib.lawful.align_pow2.pos i1.packed
    have := i1.le
    have : es0.length = 0 := by omega
    rw [List.length_eq_zero_iff.1 this]; rfl
  have hiff : (q.cap.toNat = 0 ∨ (T.sem.headNeedsDrop || T.sem.NEEDS_VDROP) = false ∨ ∀ e ∈ es, Headless T ∧ Idle T e.2) ↔ ok := by
    rw [Bool.or_eq_false_iff]
    constructor
    · rintro (h0 | h0 | h0)
      · exact .inr (.inl (hcap h0))
      · exact .inl h0
      · cases es with
        | nil => exact .inr (.inl (hnil.1 rfl))
        | cons e es => exact .inr (.inr ⟨(h0 e (by simp)).1, fun e he => (h0 e he).2⟩)
    · rintro (h0 | h0 | h0)
      · exact .inr (.inl h0)
      · rw [hnil.2 h0]; exact .inr (.inr fun e he => by cases he)
      · exact .inr (.inr fun e he => ⟨h0.1, h0.2 e he⟩)
  rw [hiff] at h1
  exact h1

end

/-- Whatever the library does for one object (its layout, iterating to it, finding it by its offset, `refs`, `muts`, slices, destroying or freeing it), it makes and uses references only to the object's own bytes. -/
theorem C76_own_bytes_partial {T : Ty w} (hT : TyOk T) {l : Layout w} (hl : ∃ v o, T.sem.Rep v l o) (U : Unpins w) (t lo : Nat) :
    Only lo l.size.toNat (calcTy T t lo l) ∧ Only lo l.size.toNat (iterNext T t lo l) ∧ Only lo l.size.toNat (iterMutNext U T t lo l) ∧ Only lo l.size.toNat (vdropTy U T t lo l) ∧
    Only lo l.size.toNat (ownedDrop U T t lo l) ∧ Only lo l.size.toNat (boxDrop U T t lo l) ∧ Only lo l.size.toNat (fromOffset T t lo) ∧ Only lo l.size.toNat (fromOffsetMut U T t lo) ∧
    (∀ hs ha fs, T = .struct hs ha fs → ∀ u, Only lo l.size.toNat (refs hs fs t lo l) ∧ Only lo l.size.toNat (muts U u hs fs t lo l)) ∧
    (∀ Ts, T = .tuple Ts → ∀ u, Only lo l.size.toNat (refs 0 (Ts.map .varlen) t lo l) ∧ Only lo l.size.toNat (muts U u 0 (Ts.map .varlen) t lo l)) ∧
    ∀ P L, T = .array P L → ∀ u, Only lo l.size.toNat (arrayDeref P L t lo l) ∧ Only lo l.size.toNat (arrayMutSlice U u P L t lo l) := by
  have hh := tyOk_head_le hT hl
  have hc := fun t => calcTy_only hT t lo l hl
  have hv := fun t => vdropTy_only (U := U) hT t lo l hl
  refine ⟨hc t, ?_, ?_, hv t, ?_, ?_, .retag _ _ (by omega) (by omega), .retag _ _ (by omega) (by omega), ?_, ?_, ?_⟩
  · exact .bind (.retag _ _ (by omega) (by omega)) fun r => .bind (hc r) fun _ => .pure _ _ _
  · exact .bind (.retag _ _ (by omega) (by omega)) fun r => .bind (.retag _ _ (by omega) (by omega)) fun c => .bind (hc c) fun _ => .pure _ _ _
  · exact .bind (.retag _ _ (by omega) (by omega)) fun r => .bind (hc r) fun _ => .bind (.retag _ _ (by omega) (by omega)) fun m => hv m
  · exact .bind (.retag _ _ (by omega) (by omega)) fun r => .bind (hc r) fun _ => .bind (.retag _ _ (by omega) (by omega)) fun m => .bind (hv m) fun _ => .write _ (by omega) (by omega)
  · rintro hs ha fs rfl u
    obtain ⟨size, ls, rfl, hf⟩ := struct_fits hT hl
    obtain ⟨hn, hi⟩ := struct_inside hT hl
    exact ⟨refs_only hn hf hi _ _, muts_only hn hf hi _ _⟩
  · rintro Ts rfl u
    obtain ⟨size, ls, rfl, hf⟩ := tuple_fits hT hl
    exact ⟨refs_only (Nat.zero_le _) hf (tuple_inside hT hl) _ _, muts_only (Nat.zero_le _) hf (tuple_inside hT hl) _ _⟩
  · rintro P L rfl u
    obtain ⟨v, ov, off, k, size, xs, rfl, rfl, _, _, ho, hs, _⟩ := hl
    have hh' : L.bytes ≤ size.toNat := hh
    have hs' : size.toNat = off.toNat + k.toNat * P.ty.size := hs
    constructor
    · rw [arrayDeref]
      exact .bind (.retag (n := size.toNat) _ _ (by omega) (by omega)) fun _ => .bind (.retag (n := size.toNat) _ _ (by omega) (by omega)) fun _ => .bind (.read (n := size.toNat) _ (by omega) (by omega)) fun _ =>
        .bind (.retag (n := size.toNat) _ _ (by omega) (by omega)) fun _ => .retag (n := size.toNat) _ _ (by omega) (by omega)
    · rw [arrayMutSlice]
      exact .bind (.retag (n := size.toNat) _ _ (by omega) (by omega)) fun _ => .bind (.retag (n := size.toNat) _ _ (by omega) (by omega)) fun _ => .bind (.read (n := size.toNat) _ (by omega) (by omega)) fun _ =>
        .bind (.retag (n := size.toNat) _ _ (by omega) (by omega)) fun _ => .retag (n := size.toNat) _ _ (by omega) (by omega)

/-- References to anything else, as to the other elements of a sequence, stay as good as they were. -/
theorem C76_others_partial {α : Type} {m : S α} {lo n : Nat} (hm : Only lo n m) {σ σ' : Stacks} {r : α} (e : m σ = .ok (r, σ')) {t lo' n' : Nat} (hd : lo' + n' ≤ lo ∨ lo + n ≤ lo') :
    (CanRead σ' t lo' n' ↔ CanRead σ t lo' n') ∧ (CanWrite σ' t lo' n' ↔ CanWrite σ t lo' n') := by
  have hx : ∀ x, lo' ≤ x → x < lo' + n' → σ'.stack x = σ.stack x := fun x h1 h2 => hm σ σ' r e x (by omega)
  constructor
  · exact ⟨fun h x h1 h2 => by rw [← hx x h1 h2]; exact h x h1 h2, fun h x h1 h2 => by rw [hx x h1 h2]; exact h x h1 h2⟩
  · exact ⟨fun h x h1 h2 => by rw [← hx x h1 h2]; exact h x h1 h2, fun h x h1 h2 => by rw [hx x h1 h2]; exact h x h1 h2⟩

/-- Constructing an object, in a box or elsewhere in an allocation, by any initializer of the library, is always fine, and concerns only the object's own bytes. Afterwards, the pointer to the allocation is as good as before. -/
theorem C76_construct_partial {T : Ty w} (hT : TyOk T) {l : Layout w} (hl : ∃ v o, T.sem.Rep v l o) {U : Unpins w} {t lo n : Nat} (hn : lo + l.size.toNat ≤ n) {init : S Unit} (hi : Inits U t T lo l init)
    {σ : Stacks} (hσ : σ.Ok) (ht : Allocated σ t 0 n) : (∃ σ', init σ = .ok ((), σ') ∧ σ'.Ok ∧ Allocated σ' t 0 n) ∧ Only lo l.size.toNat init := ⟨inits_done hi hT hl hn σ hσ ht, inits_only hi hT hl⟩

/-- A push in place, at offset `off`, is always fine; it concerns only the new object's bytes and its byte of the bitmask. -/
theorem C76_push_partial {T : Ty w} (hT : TyOk T) {l : Layout w} (hl : ∃ v o, T.sem.Rep v l o) {U : Unpins w} {checked : Bool} {t cap off : Nat} (hpos : 0 < l.size.toNat)
    (hfit : off * T.sem.ALIGN.toNat + l.size.toNat ≤ cap * T.sem.ALIGN.toNat) {init : S Unit} (hi : Inits U t T (off * T.sem.ALIGN.toNat) l init)
    {σ : Stacks} (hσ : σ.Ok) (ht : Allocated σ t 0 (seqBytes checked T.sem.ALIGN.toNat cap)) :
    ∃ σ', push checked t T.sem.ALIGN.toNat cap off init σ = .ok ((), σ') ∧ σ'.Ok ∧ Allocated σ' t 0 (seqBytes checked T.sem.ALIGN.toNat cap) ∧
      ∀ x, ¬ (off * T.sem.ALIGN.toNat ≤ x ∧ x < off * T.sem.ALIGN.toNat + l.size.toNat) → ¬ (checked = true ∧ x = cap * T.sem.ALIGN.toNat + off / 8) → σ'.stack x = σ.stack x := by
  have hlt : off < cap := Nat.lt_of_mul_lt_mul_right (a := T.sem.ALIGN.toNat) (by omega)
  obtain ⟨σ1, e1, o1, a1⟩ := markValid_done (checked := checked) (t := t) (align := T.sem.ALIGN.toNat) (off := off) (cap := cap) (n := seqBytes checked T.sem.ALIGN.toNat cap)
    (fun hc => by rw [seqBytes, if_pos hc]; omega) σ hσ ht
  obtain ⟨σ2, e2, o2, a2⟩ := inits_done hi hT hl (n := seqBytes checked T.sem.ALIGN.toNat cap) (Nat.le_trans hfit (Nat.le_add_right ..)) σ1 o1 a1
  refine ⟨σ2, (bind_ok e1).trans e2, o2, a2, fun x h1 h2 => ?_⟩
  rw [inits_only hi hT hl σ1 σ2 () e2 x (by omega)]
  by_cases hc : checked = true
  · rw [markValid, if_pos hc] at e1
    exact Only.bind (.read _ (Nat.le_refl _) (Nat.le_refl _)) (fun _ => .write _ (Nat.le_refl _) (Nat.le_refl _)) σ σ1 () e1 x (by have := mt (And.intro hc) h2; omega)
  · rw [markValid, if_neg hc] at e1
    injection e1 with e1
    injection e1 with _ e1
    rw [e1]

/-- Making and growing the storage, to at least twice the capacity as `try_realloc` does (varlen/src/seq.rs:496-499), is always fine; so is `is_offset_valid`. A new storage: only the bitmask
is touched; growing it: not the elements; `is_offset_valid`: only its byte of the bitmask. -/
theorem C76_storage_partial {t align cap cap' off : Nat} (ha : 1 ≤ align) (hg : 2 * cap ≤ cap') (ho : off < cap') {σ : Stacks} (hσ : σ.Ok) (ht : Allocated σ t 0 (seqBytes true align cap')) :
    (∃ σ', allocStorage t align cap' σ = .ok ((), σ') ∧ σ'.Ok ∧ Allocated σ' t 0 (seqBytes true align cap')) ∧
    (∃ σ', growStorage t align cap cap' σ = .ok ((), σ') ∧ σ'.Ok ∧ Allocated σ' t 0 (seqBytes true align cap')) ∧
    (∃ σ', isValid t align cap' off σ = .ok ((), σ') ∧ σ'.Ok ∧ Allocated σ' t 0 (seqBytes true align cap')) ∧
    Only (cap' * align) ((cap' + 7) / 8) (allocStorage t align cap') ∧ Only (cap * align) (seqBytes true align cap' - cap * align) (growStorage t align cap cap') ∧
    Only (cap' * align + off / 8) 1 (isValid t align cap' off) := by
  have hb : seqBytes true align cap' = cap' * align + (cap' + 7) / 8 := by rw [seqBytes, if_pos rfl]
  refine ⟨Done.fill (by omega) σ hσ ht, growStorage_done ha hg (by omega) σ hσ ht, Done.read (by omega) σ hσ ht, ?_, ?_, .read t (Nat.le_refl _) (Nat.le_refl _)⟩
  · exact .bind (.retag _ _ (Nat.le_refl _) (Nat.le_refl _)) fun r => .bind (.retag _ _ (Nat.le_refl _) (Nat.le_refl _)) fun r' => .write r' (Nat.le_refl _) (Nat.le_refl _)
  · have hm : cap * align ≤ cap' * align := Nat.mul_le_mul_right _ (by omega)
    rw [hb]
    exact .bind (.retag _ _ (by omega) (by omega)) fun o => .bind (.retag _ _ (by omega) (by omega)) fun m => .bind (.retag _ _ (by omega) (by omega)) fun o' =>
      .bind (.retag _ _ (by omega) (by omega)) fun m' => .bind (.read _ (by omega) (by omega)) fun _ => .bind (.write _ (by omega) (by omega)) fun _ =>
      .bind (.retag _ _ (by omega) (by omega)) fun r => .write _ (by omega) (by omega)

namespace Demo
open Varlen.Demo

/-- The sequence with two elements of the other examples: iterating is fine, and dropping it is undefined behaviour (the elements have destructors). -/
example (U : Unpins 64) (σ : Stacks) (hσ : σ.Ok) (t : Nat) (ht : Allocated σ t 0 (seqBytes true (Ty.array guardP lenU16 : Ty 64).sem.ALIGN.toNat σ2.2.cap.toNat)) :
    ∃ es, Places (.array guardP lenU16) σ2.1 σ2.2 [(0, elem [1, 2, 3]), (4, elem [4])] es ∧ (∃ rs σ', iterAll (iterMutNext U (.array guardP lenU16) t) es σ = .ok (rs, σ') ∧ rs.length = 2) ∧
      Undefined (seqDrop U (.array guardP lenU16) true t σ2.2.cap.toNat (seqBytes true (Ty.array guardP lenU16 : Ty 64).sem.ALIGN.toNat σ2.2.cap.toNat) es) σ := by
  have hT : TyOk (.array guardP lenU16 : Ty 64) := .array D4_ok lenU16_ok
  obtain ⟨m, hh⟩ := hist2
  obtain ⟨es, hp⟩ := places_exist (T := .array guardP lenU16) hT (by decide) hh
  refine ⟨es, hp, ?_, ?_⟩
  · obtain ⟨rs, σ', e, hl, _⟩ := (C76_iter_mut_partial hT (by decide) hh hp hσ ht U).1 (.inl (.array ..))
    exact ⟨rs, σ', e, hl⟩
  · refine (C76_seq_drop_partial hT (by decide) hh hp hσ ht U).2 ?_
    rintro (h | h | h)
    · exact absurd h.2 (by decide +kernel)
    · cases h
    · obtain ⟨hl, hat⟩ := hp
      cases es with
      | nil => simp at hl
      | cons e es =>
        obtain ⟨_, hv⟩ := hat 0 0 (elem [1, 2, 3]) e rfl rfl
        have hi := h.2 e (by simp)
        obtain ⟨o, n, size, xs, e1, e2, _, _, _, _, he, _⟩ := hv.rep
        rw [e2] at hi
        cases hi with
        | array hi =>
          have h0 := hi (by decide +kernel)
          have hx : xs.length = 3 := by
            have : (V.arr xs) = elem [1, 2, 3] := e1.symm
            have h3 : elem [1, 2, 3] = .arr [d4 1, d4 2, d4 3] := rfl
            rw [h3] at this
            injection this with this
            rw [this]; rfl
          have := congrArg List.length he
          rw [elemsV_length, hx] at this
          rw [this] at h0
          revert h0; decide +kernel

/-- Storage and pushes: a new sequence of `u8` arrays with 32 units of 2 bytes, an array of 3 bytes pushed, another one, then the storage grown, and another one. -/
def pushes : S Unit := do
  allocStorage 0 2 4
  push true 0 2 4 0 (do initArray noU u8Plain 0 2 3; write 0 0 2)
  isValid 0 2 4 0
  fill 0 0 32
  growStorage 0 2 4 8
  push true 0 2 8 3 (do initArray allU u8Plain 0 8 2; write 0 6 2)
  push true 0 2 8 5 (write 0 10 4)
example : undefined pushes = some false := by decide +kernel
example : undefined (do pushes; let rs ← iterAll (iterMutNext noU (.array u8Plain lenU16) 0) [(0, .array 2 3 5), (6, .array 2 2 4), (10, .array 2 2 4)]; rs.forM fun r => write r 0 0) = some false := by decide +kernel
example : undefined (do pushes; seqDrop noU (.array u8Plain lenU16) true 0 8 17 [(0, .array 2 3 5), (6, .array 2 2 4), (10, .array 2 2 4)]) = some false := by decide +kernel
example : undefined (iterAll (iterNext (w := 64) (.array u8Plain lenU16) 0) [(0, .array 2 3 5), (6, .array 2 2 4)]) = some false := by decide +kernel
example : undefined (iterAll (iterNext (w := 64) (.tuple [.array u8Plain lenU16]) 0) [(0, .fields 5 [(0, .array 2 3 5)])]) = some true := by decide +kernel
example : undefined (seqDrop noU (.array guardP lenU16) true 0 8 33 [(0, .array 4 3 16)]) = some true := by decide +kernel
example : undefined (seqDrop noU (.array guardP lenU16) true 0 8 33 [(0, .array 4 0 4)]) = some false := by decide +kernel
/-- A struct with an array field and a nested array, made by a struct initializer. -/
def inits : S Unit := do
  initArray allU u8Plain 0 1 3
  (do initArray allU u8Plain 0 6 2; write 0 4 2)
  write 0 0 1
example : Inits allU 0 (.struct 1 1 [.length u8Plain 0, .array u8Plain u8Len, .varlen (.array u8Plain lenU16)] : Ty 64) 0 (.fields 8 [(1, .len 3), (4, .array 2 2 4)])
    (do (do initArray allU u8Plain 0 (0 + (1 : BitVec 64).toNat) (3 : BitVec 64).toNat
            (do (do initArray allU u8Plain 0 (0 + (4 : BitVec 64).toNat + (2 : BitVec 64).toNat) (2 : BitVec 64).toNat; write 0 (0 + (4 : BitVec 64).toNat) lenU16.bytes); pure ()))
        write 0 0 1) :=
  .struct (.length (.array (.varlen (.array u8Plain lenU16 _ _ _ _) (.nil _))))
example : undefined inits = some false := by decide +kernel
/-- The storage may not be grown by less: the slice for the new bitmask would end the one for the old. -/
example : undefined (growStorage 0 1 8 8) = some true := by decide +kernel

/-- In the sequence with two elements: going to the first, mutably, or destroying it, leaves references to the second as they are. -/
example (U : Unpins 64) (t t' : Nat) {es : List (Nat × Layout 64)} (hp : Places (.array guardP lenU16) σ2.1 σ2.2 [(0, elem [1, 2, 3]), (4, elem [4])] es) {e1 e2 : Nat × Layout 64} (h1 : es[0]? = some e1) (h2 : es[1]? = some e2)
    {σ σ' σ'' : Stacks} {r : Nat} (i1 : iterMutNext U (.array guardP lenU16) t e1.1 e1.2 σ = .ok (r, σ')) (i2 : ownedDrop U (.array guardP lenU16) t e1.1 e1.2 σ' = .ok ((), σ'')) (h : CanRead σ t' e2.1 8) : CanRead σ'' t' e2.1 8 := by
  have hT : TyOk (.array guardP lenU16 : Ty 64) := .array D4_ok lenU16_ok
  obtain ⟨p1, v1⟩ := hp.2 0 0 _ e1 rfl h1
  obtain ⟨p2, v2⟩ := hp.2 1 4 _ e2 rfl h2
  have hb := C76_own_bytes_partial hT ⟨_, _, v1.rep⟩ U t e1.1
  obtain ⟨off, k, size, xs, e, hl, _, _, ho, hs, hx, _⟩ := v1.rep
  injection e with e
  subst e
  have hx := congrArg List.length hx
  rw [elemsV_length] at hx
  have hd : e1.1 + e1.2.size.toNat ≤ e2.1 := by
    have ha : (Ty.array guardP lenU16 : Ty 64).sem.ALIGN.toNat = 4 := by decide +kernel
    rw [ha] at p1 p2
    have hk : k.toNat = 3 := hx
    rw [hl, p1, p2]
    show 0 * 4 + size.toNat ≤ _
    have ho' : off.toNat = 4 := ho
    have hs' : size.toNat = off.toNat + k.toNat * 4 := hs
    have : (4 : BitVec 64).toNat = 4 := rfl
    omega
  have q1 := (C76_others_partial hb.2.2.1 i1 (t := t') (lo' := e2.1) (n' := 8) (.inr hd)).1
  have q2 := (C76_others_partial hb.2.2.2.2.1 i2 (t := t') (lo' := e2.1) (n' := 8) (.inr hd)).1
  exact q2.2 (q1.2 h)

/-- A two-byte array with a 16-bit length. -/
theorem lays_bytes : ∃ v o, (Ty.array u8Plain lenU16 : Ty 64).sem.Rep v (.array 2 2 4) o :=
  ⟨.arr [[some 8], [some 9]], fun i => [some 2, some 0, some 8, some 9].getD i none, 2, 2, 4, _, rfl, rfl, by decide +kernel, by decide +kernel, by decide +kernel, by decide +kernel, rfl, by decide +kernel⟩

/-- Making it, at offset 6 of an allocation of 17 bytes, and pushing it to a sequence with room for 8 units, at offset 3. -/
example (U : Unpins 64) {σ : Stacks} (hσ : σ.Ok) {t : Nat} (ht : Allocated σ t 0 17) :
    (∃ σ', (do initArray U u8Plain t 8 2; write t 6 2 : S Unit) σ = .ok ((), σ') ∧ σ'.Ok ∧ Allocated σ' t 0 17) ∧
    ∃ σ', push true t 2 8 3 (do initArray U u8Plain t 8 2; write t 6 2) σ = .ok ((), σ') ∧ Allocated σ' t 0 17 ∧
      ∀ x, ¬ (6 ≤ x ∧ x < 10) → ¬ x = 16 → σ'.stack x = σ.stack x := by
  have hT : TyOk (.array u8Plain lenU16 : Ty 64) := .array (u8Ty_ok (by decide)) lenU16_ok
  have hi : Inits U t (.array u8Plain lenU16) 6 (.array 2 2 4) (do initArray U u8Plain t 8 2; write t 6 2) := .array u8Plain lenU16 6 2 2 4
  refine ⟨(C76_construct_partial hT lays_bytes (n := 17) (by decide) hi hσ ht).1, ?_⟩
  obtain ⟨σ', e, _, a, h⟩ := C76_push_partial hT lays_bytes (checked := true) (t := t) (cap := 8) (off := 3) (by decide) (by decide +kernel) hi hσ ht
  exact ⟨σ', e, a, fun x h1 h2 => h x h1 fun h3 => h2 h3.2⟩

end Demo

end Varlen.SB
