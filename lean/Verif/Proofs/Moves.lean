import Verif.Spec.Moves
import Verif.Proofs.Drops
namespace Varlen
variable {w : Nat}

theorem AtMost.of_perm {xs ys : List Event} (h : xs.Perm ys) : AtMost xs ys := fun e => Nat.le_of_eq (List.perm_iff_count.1 h e)
theorem AtMost.nil (ys : List Event) : AtMost [] ys := fun e => by simp
theorem AtMost.trans {xs ys zs : List Event} (h : AtMost xs ys) (h' : AtMost ys zs) : AtMost xs zs := fun e => Nat.le_trans (h e) (h' e)
theorem AtMost.of_le {xs ys : List Event} (zs : List Event) (h : AtMost xs ys) : AtMost xs (ys ++ zs) := fun e => by
  have := h e
  rw [List.count_append]; omega

/-- What accounting gives for an array initializer. -/
structure ArrSums (R : RTy) (n : Nat) (I : ArrInit) (held made : List Event) : Prop where
  owes : I.owes = held
  ok : ∀ xs, I.vals n = some xs → (I.left n ++ (xs.map R.dtor).flatten).Perm (held ++ made)
  panic : I.vals n = none → AtMost (I.lost n) (held ++ made)

theorem ClosureCalls.sums {τ : Type} {R : RTy} {f : Closure τ} {t : τ} {i n : Nat} {ms : List Event} (h : ClosureCalls R f t i n ms) :
    (∀ xs, callSeq f t i n = some xs → (f.drops (callState f t i n) ++ (xs.map R.dtor).flatten).Perm (f.drops t ++ ms)) ∧
    (callSeq f t i n = none → AtMost (f.drops (callState f t i n)) (f.drops t ++ ms)) := by
  induction h with
  | stop => simp [callSeq, callState]
  | @call t t' i n img m ms e hp _ ih =>
    simp only [callSeq, callState, e]
    constructor
    · intro xs hx
      obtain ⟨ys, hy, rfl⟩ := Option.map_eq_some_iff.1 hx
      have h1 := List.perm_iff_count.1 (ih.1 ys hy)
      have h2 := List.perm_iff_count.1 hp
      refine List.perm_iff_count.2 fun a => ?_
      have h1 := h1 a
      have h2 := h2 a
      simp only [List.count_append, List.map_cons, List.flatten_cons] at h1 h2 ⊢
      omega
    · intro hx
      have h1 := ih.2 (by simpa using hx)
      have h2 := List.perm_iff_count.1 hp
      intro a
      have h1 := h1 a
      have h2 := h2 a
      simp only [List.count_append] at h1 h2 ⊢
      omega
  | @panic t t' i n m e hm =>
    simp only [callSeq, callState, e]
    exact ⟨fun xs hx => by simp at hx, fun _ => hm⟩

theorem IterNexts.sums {τ : Type} {R : RTy} {it : IterFn τ} {t : τ} {n : Nat} {ms : List Event} (h : IterNexts R it t n ms) :
    (∀ xs, iterTake it t n = some xs → (it.drops (iterState it t n) ++ (xs.map R.dtor).flatten).Perm (it.drops t ++ ms)) ∧
    (iterTake it t n = none → AtMost (it.drops (iterState it t n)) (it.drops t ++ ms)) := by
  induction h with
  | stop => simp [iterTake, iterState]
  | @yield t t' n img m ms e hp _ ih =>
    simp only [iterTake, iterState, e]
    constructor
    · intro xs hx
      obtain ⟨ys, hy, rfl⟩ := Option.map_eq_some_iff.1 hx
      have h1 := List.perm_iff_count.1 (ih.1 ys hy)
      have h2 := List.perm_iff_count.1 hp
      refine List.perm_iff_count.2 fun a => ?_
      have h1 := h1 a
      have h2 := h2 a
      simp only [List.count_append, List.map_cons, List.flatten_cons] at h1 h2 ⊢
      omega
    · intro hx
      have h1 := ih.2 (by simpa using hx)
      have h2 := List.perm_iff_count.1 hp
      intro a
      have h1 := h1 a
      have h2 := h2 a
      simp only [List.count_append] at h1 h2 ⊢
      omega
  | @done t t' n m e hm =>
    simp only [iterTake, iterState, e]
    exact ⟨fun xs hx => by simp at hx, fun _ => hm⟩
  | @panic t t' n m e hm =>
    simp only [iterTake, iterState, e]
    exact ⟨fun xs hx => by simp at hx, fun _ => hm⟩

theorem cloneAll_eq_some {c : CloneFn} : ∀ {xs ys : List Img}, xs.map c = ys.map some → cloneAll c xs = some ys
  | [], [], _ => rfl
  | [], _ :: _, h => by simp at h
  | _ :: _, [], h => by simp at h
  | x :: xs, y :: ys, h => by
    simp only [List.map_cons, List.cons.injEq] at h
    simp [cloneAll, h.1, cloneAll_eq_some h.2]

theorem cloneAll_eq_none {c : CloneFn} : ∀ {xs : List Img}, (∃ x ∈ xs, c x = none) → cloneAll c xs = none
  | [], h => by simp at h
  | x :: xs, h => by
    simp only [cloneAll]
    cases hx : c x with
    | none => rfl
    | some y =>
      have : ∃ x ∈ xs, c x = none := by
        obtain ⟨z, hz, e⟩ := h
        rcases List.mem_cons.1 hz with rfl | hz
        · rw [hx] at e; cases e
        · exact ⟨z, hz, e⟩
      simp [cloneAll_eq_none this]

theorem callSeq_const {d : Img} : ∀ {i n : Nat}, callSeq (τ := Unit) { call := fun _ _ => (some d, ()) } () i n = some (List.replicate n d)
  | _, 0 => rfl
  | i, n + 1 => by simp [callSeq, callSeq_const, List.replicate_succ]

theorem ArrAccounts.sums {R : RTy} {n : Nat} {I : ArrInit} {held made : List Event} (h : ArrAccounts R n I held made) : ArrSums R n I held made := by
  cases h with
  | fillSequentially hc => exact ⟨rfl, hc.sums.1, hc.sums.2⟩
  | @fillWithDefault img =>
    refine ⟨rfl, fun xs hx => ?_, fun hx => ?_⟩
    · have hx : callSeq (τ := Unit) { call := fun _ _ => (some img, ()) } () 0 n = some xs := hx
      rw [callSeq_const] at hx
      cases hx
      show ([] ++ _).Perm _
      simp
    · have hx : callSeq (τ := Unit) { call := fun _ _ => (some img, ()) } () 0 n = none := hx
      rw [callSeq_const] at hx
      cases hx
  | fillWithDefaultPanic =>
    refine ⟨rfl, fun xs hx => ?_, fun hx => AtMost.nil _⟩
    cases n with
    | zero => cases hx; exact List.Perm.refl _
    | succ n => cases hx
  | fromIterPrefix hc => exact ⟨rfl, hc.sums.1, hc.sums.2⟩
  | @copyFrom src xs hn =>
    refine ⟨rfl, fun ys hx => ?_, fun hx => AtMost.nil _⟩
    have : (ys.map R.dtor).flatten = [] := by simp [RTy.dtor, hn]
    rw [this]; exact List.Perm.refl _
  | @cloneFrom c src xs ys hxy =>
    refine ⟨rfl, fun zs hx => ?_, fun hx => AtMost.nil _⟩
    simp only [CloneFrom] at hx ⊢
    split at hx
    · rw [cloneAll_eq_some hxy] at hx
      cases hx
      exact List.Perm.refl _
    · cases hx
  | @cloneFromPanic c src xs hno =>
    refine ⟨rfl, fun ys hx => ?_, fun hx => AtMost.nil _⟩
    simp only [CloneFrom] at hx
    split at hx
    · next hl =>
      rcases hno with hno | hno
      · exact absurd hl hno
      · rw [cloneAll_eq_none hno] at hx; cases hx
    · cases hx
  | @moveFrom xs =>
    refine ⟨flatMap_drops _ _, fun ys hx => ?_, fun hx => ?_⟩
    · simp only [MoveFrom] at hx ⊢
      split at hx
      · cases hx; simp
      · cases hx
    · simp only [MoveFrom, flatMap_drops, List.append_nil]
      exact .of_perm (List.Perm.refl _)
  | user h1 h2 h3 => exact ⟨h1, h2, h3⟩

/-- What accounting gives for an initializer. -/
structure Sums (T : VarLen w) (I : Init w) (held made : List Event) : Prop where
  owes : I.owes = held
  ok : ∀ v, I.val = some v → (I.left ++ T.drops v).Perm (held ++ made)
  panic : I.val = none → AtMost I.lost (held ++ made)

/-- What accounting gives for the fields of an aggregate. -/
structure SumsFields (lens : List Img) (fis : List (FI w)) (held made : List Event) : Prop where
  owes : fis.flatMap FI.owes = held
  ok : ∀ vs, valFields lens fis = some vs → (leftFields lens fis ++ fieldDrops (fis.map FI.fld) vs).Perm (held ++ made)
  panic : ∀ tup done, valFields lens fis = none → AtMost (lostFields tup lens done fis) (doneDrops done ++ held ++ made)

theorem count_rev (tup : Bool) (fis : List (FI w)) (a : Event) :
    ((if tup then fis.reverse else fis).flatMap FI.owes).count a = (fis.flatMap FI.owes).count a := by
  cases tup
  · rfl
  · exact List.perm_iff_count.1 ((List.reverse_perm fis).flatMap_right _) a

theorem Accounts.sums {T : VarLen w} {I : Init w} {held made : List Event} (h : Accounts T I held made) : Sums T I held made := by
  refine Accounts.rec (motive_1 := fun T I held made _ => Sums T I held made) (motive_2 := fun lens fis held made _ => SumsFields lens fis held made)
    ?_ ?_ ?_ ?_ ?_ ?_ ?_ ?_ ?_ ?_ ?_ ?_ ?_ ?_ ?_ ?_ h
  · intro R img
    refine ⟨rfl, fun v hv => ?_, fun hv => by cases hv⟩
    cases hv
    show ([] ++ R.drops img).Perm (R.dtor img ++ [])
    simp [RTy.drops, RTy.dtor]
  · intro R L len I held made ha
    have hs := ha.sums
    refine ⟨hs.owes, fun v hv => ?_, fun hv => hs.panic (by simpa [SizedInit] using hv)⟩
    obtain ⟨xs, hx, rfl⟩ := Option.map_eq_some_iff.1 hv
    have := hs.ok xs hx
    rw [← flatMap_drops] at this
    exact this
  · intro L src t I hI
    simp only [Str.tryCopy, Array.tryCopy, Option.bind_eq_bind, Option.bind_eq_some_iff] at hI
    obtain ⟨J, ⟨len, _, hJ⟩, hI⟩ := hI
    cases hJ
    cases hI
    refine ⟨rfl, fun v hv => ?_, fun hv => AtMost.nil _⟩
    obtain ⟨xs, _, rfl⟩ := Option.map_eq_some_iff.1 hv
    show ([] ++ List.flatMap u8Ty.drops _).Perm []
    simp [RTy.drops, u8Ty]
  · intro T I held made _ ih
    exact ⟨ih.owes, ih.ok, ih.panic⟩
  · intro fis held made _ ih
    have e : initLengths (fis.map fun f => FI.varlen f.1 f.2) = [] := by simp [initLengths, List.filterMap_map, Function.comp_def]
    have e2 : (fis.map fun f => FI.varlen f.1 f.2).map FI.fld = (fis.map (·.1)).map Fld.varlen := by simp [FI.fld, Function.comp_def]
    refine ⟨ih.owes, fun v hv => ?_, fun hv => ?_⟩
    · simp only [Tuple.init, aggInitializer, e] at hv ⊢
      obtain ⟨vs, hvs, rfl⟩ := Option.map_eq_some_iff.1 hv
      have := ih.ok vs hvs
      rw [e2] at this
      exact this
    · simp only [Tuple.init, aggInitializer, e] at hv ⊢
      exact ih.panic true [] (by simpa using hv)
  · intro hs ha fis held made _ ih
    refine ⟨ih.owes, fun v hv => ?_, fun hv => ?_⟩
    · obtain ⟨vs, hvs, rfl⟩ := Option.map_eq_some_iff.1 hv
      exact ih.ok vs hvs
    · exact ih.panic false [] (by simpa [Struct.init, aggInitializer] using hv)
  · intro T C s p v l I made hC hv hb he hd
    obtain ⟨I', e1, _, _, _, _, _, e2, e3, e4, e5⟩ := hC.lib.2.ok s p v l hv hb
    rw [he] at e1
    cases e1
    refine ⟨e3, fun v' hv' => ?_, fun _ => by rw [e5]; exact AtMost.nil _⟩
    rw [e2] at hv'
    rw [e4, (hd v' hv').eq]
  · intro T src v l hd
    refine ⟨rfl, fun v' hv' => ?_, fun h => by cases h⟩
    cases hv'
    rw [hd.eq]; exact List.Perm.refl _
  · intro T p v l held hd
    refine ⟨hd.eq, fun v' hv' => ?_, fun h => by cases h⟩
    cases hv'
    rw [hd.eq]
    show ([] ++ held).Perm _
    simp
  · intro T p v l held hd
    refine ⟨hd.eq, fun v' hv' => ?_, fun h => by cases h⟩
    cases hv'
    rw [hd.eq]
    show ([] ++ held).Perm _
    simp
  · intro T I held made h1 h2 h3
    exact ⟨h1, h2, h3⟩
  · intro lens
    exact ⟨rfl, fun vs hv => by cases hv; exact List.Perm.refl _, fun _ _ hv => by cases hv⟩
  · intro lens R off img fis held made _ ih
    refine ⟨by rw [List.flatMap_cons, ih.owes]; rfl, fun vs hv => ?_, fun tup done hv => ?_⟩
    · obtain ⟨vs, hvs, rfl⟩ := Option.map_eq_some_iff.1 hv
      refine List.perm_iff_count.2 fun a => ?_
      have := List.perm_iff_count.1 (ih.ok vs hvs) a
      simp only [leftFields, fieldDrops, List.map_cons, FI.fld, List.count_append, RTy.drops, RTy.dtor] at this ⊢
      omega
    · intro a
      have := ih.panic tup ((R, img) :: done) (by simpa [valFields] using hv) a
      simp only [lostFields, doneDrops, List.flatMap_cons, List.count_append, RTy.drops, RTy.dtor] at this ⊢
      omega
  · intro lens R off img fis held made _ ih
    refine ⟨by rw [List.flatMap_cons, ih.owes]; rfl, fun vs hv => ?_, fun tup done hv => ?_⟩
    · obtain ⟨vs, hvs, rfl⟩ := Option.map_eq_some_iff.1 hv
      refine List.perm_iff_count.2 fun a => ?_
      have := List.perm_iff_count.1 (ih.ok vs hvs) a
      simp only [leftFields, fieldDrops, List.map_cons, FI.fld, List.count_append, RTy.drops, RTy.dtor] at this ⊢
      omega
    · intro a
      have := ih.panic tup ((R, img) :: done) (by simpa [valFields] using hv) a
      simp only [lostFields, doneDrops, List.flatMap_cons, List.count_append, RTy.drops, RTy.dtor] at this ⊢
      omega
  · intro lens T I fis h m held made _ _ ih1 ih
    refine ⟨by rw [List.flatMap_cons, ih.owes]; show I.owes ++ _ = _; rw [ih1.owes], fun vs hv => ?_, fun tup done hv => ?_⟩
    · simp only [valFields, Option.bind_eq_some_iff, Option.map_eq_some_iff] at hv
      obtain ⟨v, hv, vs, hvs, rfl⟩ := hv
      refine List.perm_iff_count.2 fun a => ?_
      have h1 := List.perm_iff_count.1 (ih.ok vs hvs) a
      have h2 := List.perm_iff_count.1 (ih1.ok v hv) a
      simp only [leftFields, fieldDrops, List.map_cons, FI.fld, List.count_append] at h1 h2 ⊢
      omega
    · intro a
      simp only [lostFields]
      cases hI : I.val with
      | none =>
        have h1 := ih1.panic hI a
        have h2 := count_rev tup fis a
        rw [ih.owes] at h2
        simp only [List.count_append] at h1 ⊢
        omega
      | some v =>
        have h2 := List.perm_iff_count.1 (ih1.ok v hI) a
        have h1 := ih.panic tup done (by simpa [valFields, hI] using hv) a
        simp only [List.count_append] at h1 h2 ⊢
        omega
  · intro lens R len I fis h m held made ha _ ih
    have ih1 := ha.sums
    refine ⟨by rw [List.flatMap_cons, ih.owes]; show I.owes ++ _ = _; rw [ih1.owes], fun vs hv => ?_, fun tup done hv => ?_⟩
    · simp only [valFields, Option.bind_eq_some_iff, Option.map_eq_some_iff] at hv
      obtain ⟨v, hv, vs, hvs, rfl⟩ := hv
      refine List.perm_iff_count.2 fun a => ?_
      have h1 := List.perm_iff_count.1 (ih.ok vs hvs) a
      have h2 := List.perm_iff_count.1 (ih1.ok v hv) a
      rw [← flatMap_drops] at h2
      simp only [leftFields, fieldDrops, List.map_cons, FI.fld, List.count_append] at h1 h2 ⊢
      omega
    · intro a
      simp only [lostFields]
      cases hI : I.vals (len lens).toNat with
      | none =>
        have h1 := ih1.panic hI a
        have h2 := count_rev tup fis a
        rw [ih.owes] at h2
        simp only [List.count_append] at h1 ⊢
        omega
      | some v =>
        have h2 := List.perm_iff_count.1 (ih1.ok v hI) a
        have h1 := ih.panic tup done (by simpa [valFields, hI] using hv) a
        simp only [List.count_append] at h1 h2 ⊢
        omega

end Varlen
