import Verif.Props.Borrow
import Verif.Spec.Cells
/-!
# C70: changing an object through a shared reference

A field whose type has interior mutability (`Cell`, atomics, `Mutex`) may be changed through the shared references that `refs()` gives: that is the meaning of such types. This is so if the field is in the head, or if some field in the head
has interior mutability. It is not so for the variable-length part of all other objects: their heads promise, as markers are plain data, that nothing changes, and to change it is undefined behaviour. In particular this concerns all of
`Array<Cell<_>, _>`.
-/
namespace Varlen.TB
open Varlen
variable {w : Nat}

theorem Perm.step_frozen {p : Perm} {prot : Bool} (h : p.Shared false) : p.step true true prot = none := by
  rcases h with h | h <;> subst h <;> rfl

/-- Writing a byte through a reference that promises not to change it, or is derived from one that does, is undefined behaviour. -/
theorem C70_store_undefined {S : Tree} {r lo n x : Nat} {A : Tag} (h : Reach w S) (hA : S.tag r = some A) (hx : lo ≤ x ∧ x < lo + n) (hm : ¬ S.Mutable A x) : access r true lo n S = none := by
  have hi := h.inv
  unfold access
  split
  case isFalse => rfl
  case isTrue hle =>
    obtain ⟨N, hN, rfl⟩ := tag_some hA
    unfold Tree.touch
    rw [hN]
    dsimp only
    rw [if_neg]
    · rfl
    intro hall
    apply hm
    intro j K hj hK
    obtain ⟨M, hM, rfl⟩ := tag_some hK
    cases hu : M.uniq with
    | true => exact .inl rfl
    | false =>
      right
      cases him : M.im x with
      | true => rfl
      | false =>
        exfalso
        have hs := hi.shr j M x hM hu
        rw [him] at hs
        rw [List.all_eq_true] at hall
        have h1 := hall (M, j) (by
          rw [List.mem_iff_getElem?]
          exact ⟨j, by simp [List.getElem?_zipIdx, hM]⟩)
        rw [List.all_eq_true] at h1
        have h2 := h1 x (List.mem_range.mpr (by omega))
        unfold Node.cellAfter range at h2
        rw [if_pos hx] at h2
        have hd : decide (j ∈ N.path) = true := decide_eq_true hj
        simp only [Bool.false_and, hd, Bool.false_eq_true, if_false] at h2
        unfold Cell.step at h2
        rw [Perm.step_frozen hs] at h2
        cases h2

/-- A store that no reference in use forbids is not undefined behaviour. -/
theorem C70_store {S : Tree} {t lo n : Nat} (h : Reach w S) (hs : CanStore S t lo n) : ∃ S', access t true lo n S = some ((), S') ∧ ∀ i, S'.tag i = S.tag i := by
  obtain ⟨S', h1, -, -, h2⟩ := store_ok h.inv hs
  exact ⟨S', h1, fun i => by rw [tag_tags, tag_tags, h2]⟩

/-! ### What the model says is interior mutability is what the specification says -/

theorem HeadCell.cells {C : BTy w} {i : Nat} (h : HeadCell C i) : C.cells i = true := by
  induction h with
  | fixedLen _ h => exact h
  | newtype _ ih => exact ih
  | @normal _ _ _ fs R off i hm hi hc =>
    show aggCells fs _ = true
    unfold aggCells
    refine List.any_eq_true.mpr ⟨_, hm, ?_⟩
    have d1 : decide (off ≤ off + i) = true := decide_eq_true (by omega)
    have d2 : decide (off + i < off + R.size) = true := decide_eq_true (by omega)
    simp only [d1, d2, Nat.add_sub_cancel_left, hc, Bool.and_self]
  | @length _ _ _ fs R off i hm hi hc =>
    show aggCells fs _ = true
    unfold aggCells
    refine List.any_eq_true.mpr ⟨_, hm, ?_⟩
    have d1 : decide (off ≤ off + i) = true := decide_eq_true (by omega)
    have d2 : decide (off + i < off + R.size) = true := decide_eq_true (by omega)
    simp only [d1, d2, Nat.add_sub_cancel_left, hc, Bool.and_self]

theorem LibBTy.headCell {C : BTy w} (h : LibBTy C) {i : Nat} (hi : i < C.T.headSize) (hc : C.cells i = true) : HeadCell C i := by
  induction h with
  | fixedLen _ => exact .fixedLen hi hc
  | array _ _ => cases hc
  | newtype _ ih => exact .newtype (ih hi hc)
  | tuple _ _ _ => cases hc
  | @struct pin hs ha fs _ _ _ =>
    change aggCells fs i = true at hc
    unfold aggCells at hc
    obtain ⟨f, hf, hc⟩ := List.any_eq_true.mp hc
    cases f with
    | normal R off =>
      simp only [Bool.and_eq_true, decide_eq_true_eq] at hc
      have := HeadCell.normal (pin := pin) (headSize := hs) (headAlign := ha) (i := i - off) hf (by omega) hc.2
      rwa [Nat.add_sub_cancel' hc.1.1] at this
    | length R off =>
      simp only [Bool.and_eq_true, decide_eq_true_eq] at hc
      have := HeadCell.length (pin := pin) (headSize := hs) (headAlign := ha) (i := i - off) hf (by omega) hc.2
      rwa [Nat.add_sub_cancel' hc.1.1] at this
    | varlen C => cases hc
    | array R len => cases hc

theorem headIm_iff {fs : List (BFld w)} : HeadIm fs ↔ aggFreeze fs = false := by
  unfold aggFreeze HeadIm
  rw [List.all_eq_false]
  constructor
  · rintro ⟨R, off, h | h, hz⟩
    · exact ⟨_, h, by simp [hz]⟩
    · exact ⟨_, h, by simp [hz]⟩
  · rintro ⟨f, hf, hz⟩
    cases f with
    | normal R off => exact ⟨R, off, .inl hf, by simpa using hz⟩
    | length R off => exact ⟨R, off, .inr hf, by simpa using hz⟩
    | varlen C => exact absurd rfl hz
    | array R len => exact absurd rfl hz

theorem typeIm_iff {C : BTy w} (h : LibBTy C) : TypeIm C ↔ C.freeze = false := by
  constructor
  · intro hi
    clear h
    induction hi with
    | fixedLen h => exact h
    | newtype _ ih => exact ih
    | struct h => exact headIm_iff.mp h
  · intro hz
    induction h with
    | fixedLen _ => exact .fixedLen hz
    | array _ _ => cases hz
    | newtype _ ih => exact .newtype (ih hz)
    | tuple _ _ _ => cases hz
    | struct _ _ _ => exact .struct (headIm_iff.mpr hz)

theorem FieldCell.typed {f : BFld w} {i len : Nat} (h : FieldCell f i) (hi : i < len) : i < f.typed len := by
  cases h with
  | varlen a _ => exact a
  | _ => exact hi

theorem LibFields.types {hs : Nat} {fs : List (BFld w)} (h : LibFields hs fs) : ∀ C, BFld.varlen C ∈ fs → LibBTy C := by
  cases h with
  | tuple _ hC =>
    intro C h
    obtain ⟨C', h', e⟩ := List.mem_map.mp h
    cases e
    exact hC _ h'
  | struct _ hC => exact hC

theorem fieldExts_im {lo : Nat} {m : Bool} {fs : List (BFld w)} (hC : ∀ C, BFld.varlen C ∈ fs → LibBTy C) : ∀ (ls : List (BitVec w × Layout w)) (k : Nat) (f : BFld w) (e : Ext),
    fs[k]? = some f → (fieldExts m lo fs ls)[k]? = some e → ∀ x, e.lo ≤ x → x < e.lo + f.typed e.len → (e.im x = true ↔ FieldCell f (x - e.lo)) := by
  induction fs with
  | nil => intro ls k f e hf; cases hf
  | cons g fs ih =>
    have ih := ih fun C h => hC C (List.mem_cons_of_mem _ h)
    have rust : ∀ (R : RTy) (lo x : Nat), lo ≤ x → x < lo + R.size → (rustIm R lo x = true ↔ x - lo < R.size ∧ R.cells (x - lo) = true) := by
      intro R lo x h1 h2
      unfold rustIm imAt
      rw [if_pos ⟨h1, h2⟩]
      exact ⟨fun h => ⟨by omega, h⟩, fun h => h.2⟩
    intro ls k f e hf he x h1 h2
    cases g with
    | normal R off =>
      cases k with
      | zero =>
        cases hf; cases he
        rw [rust R _ x h1 h2]
        exact ⟨fun h => .normal h.1 h.2, fun h => by cases h with | normal a b => exact ⟨a, b⟩⟩
      | succ k => exact ih ls k f e hf he x h1 h2
    | length R off =>
      cases k with
      | zero =>
        cases hf; cases he
        rw [rust R _ x h1 h2]
        exact ⟨fun h => .length h.1 h.2, fun h => by cases h with | length a b => exact ⟨a, b⟩⟩
      | succ k => exact ih ls k f e hf he x h1 h2
    | varlen C =>
      rcases ls with _ | ⟨⟨o, l⟩, ls⟩
      · cases he
      · cases k with
        | zero =>
          cases hf; cases he
          dsimp only [BFld.typed] at h1 h2
          show C.im _ x = true ↔ _
          unfold BTy.im imAt
          rw [if_pos ⟨h1, h2⟩]
          constructor
          · intro h
            have hh : x - (lo + o.toNat) < C.T.headSize := by omega
            exact .varlen hh ((hC C (List.mem_cons_self ..)).headCell hh h)
          · intro h
            cases h with
            | varlen a b => exact b.cells
        | succ k => exact ih ls k f e hf he x h1 h2
    | array R len =>
      rcases ls with _ | ⟨⟨o, l⟩, ls⟩
      · cases he
      · cases l with
        | len n =>
          cases k with
          | zero =>
            cases hf; cases he
            dsimp only [BFld.typed] at h1 h2
            show sliceIm R (lo + o.toNat) n.toNat x = true ↔ FieldCell _ (x - (lo + o.toNat))
            unfold sliceIm imAt
            rw [if_pos ⟨h1, h2⟩]
            have hp : 0 < R.size := by
              rcases Nat.eq_zero_or_pos R.size with h | h
              · rw [h] at h2; omega
              · exact h
            constructor
            · intro h
              have := FieldCell.array (len := len) (k := (x - (lo + o.toNat)) / R.size) (Nat.mod_lt _ hp) h
              rwa [Nat.div_add_mod'] at this
            · intro h
              generalize x - (lo + o.toNat) = y at h ⊢
              cases h with
              | array a b =>
                show R.cells _ = true
                rw [Nat.mul_comm, Nat.mul_add_mod, Nat.mod_eq_of_lt a]
                exact b
          | succ k => exact ih ls k f e hf he x h1 h2
        | _ => cases he

/-- Through the slice of an `Array`, whatever its elements are, nothing can be changed without undefined behaviour. -/
theorem C70_array_store_undefined {S : Tree} {pin : Bool} {R : RTy} {L : LenTy} {t lo : Nat} {l : Layout w} (h : Reach w S) (hR : R.Ok w) (hL : L.Ok w) (hl : HasLayout (BTy.array pin w R L) l)
    (hr : CanRead S t lo l.size.toNat) :
    ∃ r S', arrayDeref pin R L t lo l S = some (r, S') ∧ ∀ lo' n, 0 < n → access r true lo' n S' = none := by
  obtain ⟨r, S', off, n, size, h1, h2, h3⟩ := C63_deref h hR hL hl hr
  have hreach : Reach w S' := h.step (by
    have := Step.deref (pin := pin) hR hL hl hr
    rw [h2] at this
    exact this)
  obtain ⟨-, A, g1, -, -, -, -, -, g2⟩ := h3.ref 0 r _ rfl rfl
  obtain ⟨P, hP, -⟩ := hr.live
  refine ⟨r, S', h2, ?_⟩
  intro lo' n' hn
  refine C70_store_undefined (x := lo') hreach g1 (by omega) ?_
  rw [g2 P lo' hP]
  simp [noIm]

/-- Through the references that `refs()` gives, nothing behind the head can be changed without undefined behaviour, if no field in the head has interior mutability. -/
theorem C70_tail_store_undefined {S : Tree} {hs : Nat} {fs : List (BFld w)} {t lo : Nat} {l : Layout w} (h : Reach w S) (hf : LibFields hs fs) (hl : FieldsLayout hs fs l)
    (hr : CanRead S t lo l.size.toNat) (hz : ¬ HeadIm fs) :
    ∃ rs S', refs hs fs t lo l S = some (rs, S') ∧ ∀ r ∈ rs, ∀ lo' n x, lo' ≤ x → x < lo' + n → lo + hs ≤ x → access r true lo' n S' = none := by
  have hz : aggFreeze fs = true := by
    rw [headIm_iff] at hz
    simpa using hz
  obtain ⟨rs, S', h2, h3⟩ := C63_refs h hf hl hr
  have hreach : Reach w S' := h.step (by
    have := Step.refs hf hl hr
    rw [h2] at this
    exact this)
  obtain ⟨P, hP, -⟩ := hr.live
  refine ⟨rs, S', h2, ?_⟩
  intro r hr lo' n x hx1 hx2 hx3
  obtain ⟨k, hk⟩ := List.getElem?_of_mem hr
  have hlt : k < ((fieldExts false lo fs (layoutFields l)).map (Ext.within (aggIm hs fs lo))).length := by rw [← h3.count]; exact (List.getElem?_eq_some_iff.mp hk).1
  obtain ⟨-, A, g1, -, -, -, -, -, g2⟩ := h3.ref k r _ hk (List.getElem?_eq_getElem hlt)
  refine C70_store_undefined (x := x) hreach g1 ⟨hx1, hx2⟩ ?_
  rw [g2 P x hP]
  have hu : ∀ e ∈ (fieldExts false lo fs (layoutFields l)).map (Ext.within (aggIm hs fs lo)), ¬ (e.uniq = true ∨ e.im x = true) := by
    intro e he
    obtain ⟨e', h, rfl⟩ := List.mem_map.mp he
    have := fieldExts_shared lo fs _ e' h
    have hn : ¬ (lo ≤ x ∧ x < lo + hs) := by omega
    simp [Ext.within, this, aggIm, imAt, hn, hz]
  intro hc
  exact hu _ (List.getElem_mem hlt) hc.1

/-- Who else has a byte of a reference that was just made. -/
theorem Returns.canStore {S S' : Tree} {t : Nat} {rs : List Nat} {es : List Ext} {lo n : Nat} (hi : Inv S) (hw : CanWrite S t lo n) (h : Returns S S' t rs es) (hs : ∀ e ∈ es, e.uniq = false)
    (hd : es.Pairwise Ext.Apart) {k r : Nat} {e : Ext} (hk : rs[k]? = some r) (he : es[k]? = some e) {lo' n' : Nat} (h1 : e.lo ≤ lo') (h2 : lo' + n' ≤ e.lo + e.len) (h3 : lo ≤ e.lo)
    (h4 : e.lo + e.len ≤ lo + n) (him : ∀ x, lo' ≤ x ∧ x < lo' + n' → e.im x = true) : CanStore S' r lo' n' := by
  obtain ⟨g0, A, g1, g2, g3, g4, g5, g6, g7⟩ := h.ref k r e hk he
  obtain ⟨T, t1, t2, t3, t4⟩ := hw.live
  refine ⟨⟨A, g1, g2, g3.trans (hs e (List.mem_of_getElem? he)), ?_⟩, ?_⟩
  · unfold Tag.Covers; omega
  intro i M x hM hl hx hx'
  have hmA : S'.Mutable A x := (g7 T x t1).mpr ⟨.inr (him x hx'), by
    obtain ⟨N, hN, rfl⟩ := tag_some t1
    exact hi.uniqMutable hN t3 x⟩
  by_cases hlt : i < S.nodes.length
  · rw [h.old i hlt] at hM
    obtain ⟨N, hN, rfl⟩ := tag_some hM
    obtain ⟨K, hK, rfl⟩ := tag_some t1
    have hpath : ∀ j ∈ N.path, S'.tag j = S.tag j := fun j hj => h.old j (path_lt hi hM hj)
    have hu : N.uniq = true := by
      have hxT : K.Has x := by
        unfold Tag.Has; unfold Tag.Covers at t4; omega
      rcases hi.rel i t N K x hN hK hl t2 hx hxT (.inr t3) with hp | hp
      · obtain ⟨N', hN', -, hq⟩ := hi.anc t K i hK hp
        rw [hN] at hN'; cases hN'
        exact hq t3
      · by_cases hit : i = t
        · subst hit; rw [hN] at hK; cases hK; exact t3
        · exact absurd (by omega) (hw.excl i _ hM hl hp hit x hx)
    intro j Kj hj hKj
    rw [hpath j hj] at hKj
    exact hi.uniqMutable hN hu x j Kj hj hKj
  · have hir := h.new i M (Nat.not_lt.mp hlt) hM hl
    obtain ⟨j, hj⟩ := List.getElem?_of_mem hir
    have hjl : j < es.length := by rw [← h.count]; exact (List.getElem?_eq_some_iff.mp hj).1
    obtain ⟨-, B, b1, -, -, b2, b3, -, -⟩ := h.ref j i _ hj (List.getElem?_eq_getElem hjl)
    rw [hM] at b1; cases b1
    have hkl : k < es.length := (List.getElem?_eq_some_iff.mp he).1
    have ek : es[k] = e := (List.getElem?_eq_some_iff.mp he).2
    by_cases hjk : j = k
    · subst hjk
      rw [hj] at hk; cases hk
      rw [hM] at g1; cases g1
      exact hmA
    · exfalso
      unfold Tag.Has at hx
      rw [List.pairwise_iff_getElem] at hd
      rcases Nat.lt_or_gt_of_ne hjk with hlt' | hlt'
      · have := hd j k hjl hkl hlt'
        rw [ek] at this
        exact this x ⟨by omega, by omega⟩
      · have := hd k j hkl hjl hlt'
        rw [ek] at this
        exact this x ⟨by omega, by omega⟩

theorem fieldExts_head {lo hs : Nat} {fs : List (BFld w)} : ∀ (ls : List (BitVec w × Layout w)) (cur fin : Nat), hs ≤ cur → Lays fs ls cur fin → ∀ e ∈ fieldExts false lo fs ls, ∀ x, e.lo ≤ x → x < e.lo + e.len →
    x < lo + hs → e.im x = true → lo ≤ x ∧ aggCells fs (x - lo) = true := by
  induction fs with
  | nil => intro ls cur fin _ _ e he; simp [fieldExts] at he
  | cons f fs ih =>
    intro ls cur fin hc hl e he x h1 h2 h3 h4
    have up : lo ≤ x ∧ aggCells fs (x - lo) = true → lo ≤ x ∧ aggCells (f :: fs) (x - lo) = true := by
      rintro ⟨a, b⟩
      refine ⟨a, ?_⟩
      unfold aggCells at b ⊢
      rw [List.any_cons, b, Bool.or_true]
    have hdr : ∀ (R : RTy) (off : Nat), e = ⟨false, lo + off, R.size, rustIm R (lo + off)⟩ → (f = .normal R off ∨ f = .length R off) → lo ≤ x ∧ aggCells (f :: fs) (x - lo) = true := by
      rintro R off rfl hf
      dsimp only at h1 h2 h4
      unfold rustIm imAt at h4
      rw [if_pos ⟨h1, h2⟩, show x - (lo + off) = x - lo - off by omega] at h4
      refine ⟨by omega, ?_⟩
      have d1 : decide (off ≤ x - lo) = true := decide_eq_true (by omega)
      have d2 : decide (x - lo < off + R.size) = true := decide_eq_true (by omega)
      rcases hf with rfl | rfl <;> simp only [aggCells, List.any_cons, d1, d2, h4, Bool.true_and, Bool.true_or]
    cases f with
    | normal R off =>
      simp only [fieldExts, List.mem_cons] at he
      rcases he with he | he
      · exact hdr R off he (.inl rfl)
      · exact up (ih ls cur fin hc hl e he x h1 h2 h3 h4)
    | length R off =>
      simp only [fieldExts, List.mem_cons] at he
      rcases he with he | he
      · exact hdr R off he (.inr rfl)
      · exact up (ih ls cur fin hc hl e he x h1 h2 h3 h4)
    | varlen C =>
      rcases ls with _ | ⟨⟨o, l⟩, ls⟩
      · exact hl.elim
      · obtain ⟨⟨c1, -⟩, c2⟩ := hl
        simp only [fieldExts, List.mem_cons] at he
        rcases he with rfl | he
        · dsimp only at h1; omega
        · exact up (ih ls _ fin (by omega) c2 e he x h1 h2 h3 h4)
    | array R len =>
      rcases ls with _ | ⟨⟨o, l⟩, ls⟩
      · exact hl.elim
      · cases l with
        | len n =>
          obtain ⟨c1, c2⟩ := hl
          simp only [fieldExts, List.mem_cons] at he
          rcases he with rfl | he
          · dsimp only at h1; omega
          · exact up (ih ls _ fin (by omega) c2 e he x h1 h2 h3 h4)
        | _ => exact hl.elim

/-- Through the references that `refs()` gives, the inside of an `UnsafeCell` in the head can be changed, and so can that of one behind the head if some field in the head has interior mutability. -/
theorem C70_refs_store_partial {S : Tree} {hs : Nat} {fs : List (BFld w)} {t lo : Nat} {l : Layout w} (h : Reach w S) (hf : LibFields hs fs) (hl : FieldsLayout hs fs l)
    (hw : CanWrite S t lo l.size.toNat) :
    ∃ rs S', refs hs fs t lo l S = some (rs, S') ∧ ∀ (k r : Nat) (f : BFld w) (e : Ext), rs[k]? = some r → fs[k]? = some f → (fieldExts false lo fs (layoutFields l))[k]? = some e →
      ∀ lo' n, e.lo ≤ lo' → lo' + n ≤ e.lo + e.len → (∀ x, lo' ≤ x → x < lo' + n → FieldCell f (x - e.lo) ∧ (x < lo + hs ∨ HeadIm fs)) → CanStore S' r lo' n := by
  obtain ⟨v, o, hrep⟩ := id hl
  obtain ⟨ha, hok, hC⟩ := hf.ok
  obtain ⟨size, ls, rfl, a1, a2⟩ := agg_facts hok hrep
  obtain ⟨rs, S', h2, h3⟩ := C63_refs h hf hl hw.canRead
  refine ⟨rs, S', h2, ?_⟩
  intro k r f e hk hfk he lo' n g1 g2 g3
  have hle := Lays.le _ _ _ _ a2
  have hem := fieldExts_mem false lo fs ls _ _ a2 e (List.mem_of_getElem? he)
  have hin : lo ≤ e.lo ∧ e.lo + e.len ≤ lo + size.toNat := by
    rcases hem with ⟨f, hf, c1, c2⟩ | ⟨c1, c2⟩
    · have := a1 f hf
      omega
    · omega
  refine h3.canStore (e := e.within (aggIm hs fs lo)) h.inv hw ?_ ?_ hk (by rw [List.getElem?_map]; exact congrArg (Option.map _) he) g1 g2 hin.1 hin.2 ?_
  · intro e' he'
    obtain ⟨e', h, rfl⟩ := List.mem_map.mp he'
    exact fieldExts_shared lo fs _ e' h
  · rw [List.pairwise_map]
    exact fieldExts_apart false lo hs fs ls _ _ a2 a1 (Nat.le_refl _) hok.disjoint
  · rintro x ⟨hx1, hx2⟩
    obtain ⟨him, hc⟩ := g3 x hx1 hx2
    have him : e.im x = true := by
      refine (fieldExts_im hf.types ls k f e hfk he x (by omega) ?_).mpr him
      have hlt := him.typed (len := e.len) (by omega)
      omega
    simp only [Ext.within, him, Bool.and_true]
    unfold aggIm imAt
    by_cases hx : x < lo + hs
    · obtain ⟨c1, c2⟩ := fieldExts_head ls _ _ (Nat.le_refl _) a2 e (List.mem_of_getElem? he) x (by omega) (by omega) hx him
      rw [if_pos ⟨c1, hx⟩, c2]
    · rw [if_neg (by omega)]
      rcases hc with hc | hc
      · exact absurd hc hx
      · rw [headIm_iff.mp hc]; rfl

/-- Through the reference to a field, only the inside of an `UnsafeCell` can be changed. -/
theorem C70_refs_store_undefined {S : Tree} {hs : Nat} {fs : List (BFld w)} {t lo : Nat} {l : Layout w} (h : Reach w S) (hf : LibFields hs fs) (hl : FieldsLayout hs fs l)
    (hr : CanRead S t lo l.size.toNat) :
    ∃ rs S', refs hs fs t lo l S = some (rs, S') ∧ ∀ (k r : Nat) (f : BFld w) (e : Ext), rs[k]? = some r → fs[k]? = some f → (fieldExts false lo fs (layoutFields l))[k]? = some e →
      ∀ lo' n x, lo' ≤ x → x < lo' + n → e.lo ≤ x → x < e.lo + f.typed e.len → ¬ FieldCell f (x - e.lo) → access r true lo' n S' = none := by
  obtain ⟨rs, S', h2, h3⟩ := C63_refs h hf hl hr
  have hreach : Reach w S' := h.step (by
    have := Step.refs hf hl hr
    rw [h2] at this
    exact this)
  obtain ⟨P, hP, -⟩ := hr.live
  refine ⟨rs, S', h2, ?_⟩
  intro k r f e hk hfk he lo' n x hx1 hx2 hx3 hx4 hn
  obtain ⟨-, A, g1, -, -, -, -, -, g2⟩ := h3.ref k r _ hk (by rw [List.getElem?_map]; exact congrArg (Option.map _) he)
  refine C70_store_undefined (x := x) hreach g1 ⟨hx1, hx2⟩ ?_
  rw [g2 P x hP]
  rintro ⟨hc | hc, -⟩
  · rw [Ext.within, fieldExts_shared lo fs _ e (List.mem_of_getElem? he)] at hc
    cases hc
  · simp only [Ext.within, Bool.and_eq_true] at hc
    exact hn ((fieldExts_im hf.types _ k f e hfk he x hx3 hx4).mp hc.2)

/-- Through the shared reference that a box, an owned object or a sequence gives, the inside of an `UnsafeCell` in the head (for `FixedLen<Cell<_>>`: the value) can be changed. -/
theorem C70_deref_store {S : Tree} {C : BTy w} {t lo : Nat} {l : Layout w} (h : Reach w S) (hC : LibBTy C) (hl : HasLayout C l) (hw : CanWrite S t lo l.size.toNat) :
    ∃ r S', asRef C t lo l S = some (r, S') ∧ ∀ lo' n, lo ≤ lo' → lo' + n ≤ lo + C.T.headSize → (∀ x, lo' ≤ x → x < lo' + n → HeadCell C (x - lo)) → CanStore S' r lo' n := by
  obtain ⟨-, r, S', h1, h2⟩ := C63_inner h hC hl hw.canRead
  obtain ⟨v, o, hrep⟩ := hl
  have hn := hC.ok.1.head v l o hrep
  refine ⟨r, S', h1, ?_⟩
  intro lo' n g1 g2 g3
  refine h2.canStore (k := 0) h.inv hw (by simp) (List.pairwise_singleton _ _) rfl rfl g1 (by dsimp only; omega) (Nat.le_refl _) (Nat.le_refl _) ?_
  rintro x ⟨hx1, hx2⟩
  show C.im lo x = true
  unfold BTy.im imAt
  rw [if_pos (by omega)]
  exact (g3 x hx1 hx2).cells

/-- Nothing else in the head can be changed through it, and nothing behind the head if the head has no interior mutability. -/
theorem C70_deref_store_undefined {S : Tree} {C : BTy w} {t lo : Nat} {l : Layout w} (h : Reach w S) (hC : LibBTy C) (hl : HasLayout C l) (hr : CanRead S t lo l.size.toNat) :
    ∃ r S', asRef C t lo l S = some (r, S') ∧ ∀ lo' n x, lo' ≤ x → x < lo' + n → lo ≤ x → (if x < lo + C.T.headSize then ¬ HeadCell C (x - lo) else ¬ TypeIm C) →
      access r true lo' n S' = none := by
  obtain ⟨-, r, S', h1, h2⟩ := C63_inner h hC hl hr
  have hreach : Reach w S' := h.step (by
    have := Step.asRef hC hl hr
    rw [h1] at this
    exact this)
  obtain ⟨P, hP, -⟩ := hr.live
  refine ⟨r, S', h1, ?_⟩
  intro lo' n x hx1 hx2 hx3 hn
  obtain ⟨-, A, g1, -, -, -, -, -, g2⟩ := h2.ref 0 r _ rfl rfl
  refine C70_store_undefined (x := x) hreach g1 ⟨hx1, hx2⟩ ?_
  rw [g2 P x hP]
  rintro ⟨hc | hc, -⟩
  · cases hc
  · change C.im lo x = true at hc
    unfold BTy.im imAt at hc
    split at hn
    case isTrue hx =>
      rw [if_pos ⟨hx3, hx⟩] at hc
      exact hn (hC.headCell (by omega) hc)
    case isFalse hx =>
      rw [if_neg (fun a => hx a.2)] at hc
      exact hn ((typeIm_iff hC).mpr (by simpa using hc))

end Varlen.TB
