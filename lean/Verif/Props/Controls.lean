import Verif.Spec.Controls
import Verif.Spec.LibType
import Verif.Props.Threads
/-!
# C68: the layout is determined by the length fields
-/
namespace Varlen
variable {w : Nat}

/-- The second run gives the same result, or, unless `K`, is undefined. -/
def SameOut {α : Type} (K : Prop) (a : α) (s' : St) (r : Res St α) : Prop := r = .ok a s' ∨ (¬ K ∧ ∃ k, r = .ub k)

/-- What the second memory allows at `p'` if the first does at `p`. -/
def Allows (s : St) (p : Ptr) (s' : St) (p' : Ptr) : Prop :=
  ∀ off, (∀ n, Acc s (p.add off) n → Acc s' (p'.add off) n) ∧ ∀ a, Aligned s (p.add off) a → Aligned s' (p'.add off) a

theorem Allows.add {s s' : St} {p p' : Ptr} (h : Allows s p s' p') (d : Nat) : Allows s (p.add d) s' (p'.add d) := fun off => by
  rw [Ptr.add_add, Ptr.add_add]; exact h _

section
variable {α β : Type} {K : Prop} {s s' : St} {p p' : Ptr}

theorem SameOut.bind {x' : M α} {f' : α → M β} {a : α} {b : β} (h1 : SameOut K a s' (x' s')) (h2 : SameOut K b s' (f' a s')) :
    SameOut K b s' ((do let a ← x'; f' a : M β) s') := by
  rcases h1 with h | ⟨hk, k, h⟩
  · rcases h2 with h' | ⟨hk, k, h'⟩
    · exact .inl (by rw [bind_apply, h, Res.bind_ok, h'])
    · exact .inr ⟨hk, k, by rw [bind_apply, h, Res.bind_ok, h']⟩
  · exact .inr ⟨hk, k, by rw [bind_apply, h, Res.bind_ub]⟩

theorem bind_ok_inv {x : M α} {f : α → M β} {b : β} {s1 : St} (h : (do let a ← x; f a : M β) s = .ok b s1) : ∃ a s0, x s = .ok a s0 ∧ f a s0 = .ok b s1 := by
  rw [bind_apply] at h
  cases e : x s with
  | ok a s0 => rw [e] at h; exact ⟨a, s0, rfl, h⟩
  | panic m s0 => rw [e] at h; cases h
  | ub k => rw [e] at h; cases h

theorem readVal_inv {R : RTy} {x : Img} {s1 : St} (h : readVal R p s = .ok x s1) :
    s1 = s ∧ Aligned s p R.align ∧ Acc s p R.size ∧ x = takeV (viewAt s p) 0 R.size ∧ R.valid x = true := by
  unfold readVal at h
  obtain ⟨_, s0, h0, h⟩ := bind_ok_inv h
  obtain ⟨y, s2, h2, h⟩ := bind_ok_inv h
  unfold checkAlign at h0
  split at h0 <;> cases h0
  unfold readBytes at h2
  split at h2 <;> cases h2
  split at h <;> cases h
  exact ⟨rfl, by assumption, by assumption, rfl, by assumption⟩

theorem mkRef_inv {n a : Nat} {s1 : St} (h : mkRef p n a s = .ok () s1) : s1 = s ∧ Aligned s p a ∧ Acc s p n := by
  unfold mkRef at h
  obtain ⟨_, s0, h0, h⟩ := bind_ok_inv h
  unfold checkAlign at h0
  split at h0 <;> cases h0
  unfold checkAcc at h
  split at h <;> cases h
  exact ⟨rfl, by assumption, by assumption⟩

theorem readVal_same {R : RTy} {x : Img} {s1 : St} (off : Nat) (hA : K → Allows s p s' p') (hb : ∀ i, i < R.size → viewAt s p (off + i) = viewAt s' p' (off + i))
    (h : readVal R (p.add off) s = .ok x s1) : SameOut K x s' (readVal R (p'.add off) s') := by
  obtain ⟨rfl, h1, h2, h3, h4⟩ := readVal_inv h
  have hx : takeV (viewAt s' (p'.add off)) 0 R.size = x := by
    rw [h3, viewAt_add, viewAt_add]
    exact takeV_congr fun i hi => by simp only [shift, Nat.zero_add]; exact (hb i hi).symm
  by_cases ha : Aligned s' (p'.add off) R.align
  · by_cases hc : Acc s' (p'.add off) R.size
    · exact .inl (by rw [readVal_ok hc ha (by rw [hx]; exact h4), hx])
    · exact .inr ⟨fun hk => hc ((hA hk off).1 _ h2), .outOfBounds, by simp [readVal, checkAlign_ok ha, bind_apply, readBytes, hc]⟩
  · exact .inr ⟨fun hk => ha ((hA hk off).2 _ h1), .misaligned, by simp [readVal, bind_apply, checkAlign, ha]⟩

theorem mkRef_same {n a : Nat} {s1 : St} (off : Nat) (hA : K → Allows s p s' p') (h : mkRef (p.add off) n a s = .ok () s1) : SameOut K () s' (mkRef (p'.add off) n a s') := by
  obtain ⟨rfl, h1, h2⟩ := mkRef_inv h
  by_cases ha : Aligned s' (p'.add off) a
  · by_cases hc : Acc s' (p'.add off) n
    · exact .inl (mkRef_ok hc ha)
    · exact .inr ⟨fun hk => hc ((hA hk off).1 _ h2), .outOfBounds, by simp [mkRef, checkAlign_ok ha, bind_apply, checkAcc, hc]⟩
  · exact .inr ⟨fun hk => ha ((hA hk off).2 _ h1), .misaligned, by simp [mkRef, bind_apply, checkAlign, ha]⟩

theorem readLengths_same (hA : K → Allows s p s' p') : ∀ (fs : List (Fld w)) {xs : List Img} {s1 : St},
    (∀ R off, Fld.length R off ∈ fs → ∀ i, i < R.size → viewAt s p (off + i) = viewAt s' p' (off + i)) →
    readLengths p fs s = .ok xs s1 → s1 = s ∧ SameOut K xs s' (readLengths p' fs s')
  | [], xs, s1, _, h => by cases h; exact ⟨rfl, .inl rfl⟩
  | .length R off :: fs, xs, s1, hb, h => by
    obtain ⟨x, s0, h0, h⟩ := bind_ok_inv h
    obtain ⟨ys, s2, h2, h⟩ := bind_ok_inv h
    cases h
    rw [(readVal_inv h0).1] at h2
    obtain ⟨e, ih⟩ := readLengths_same hA fs (fun R off hf => hb R off (List.mem_cons_of_mem _ hf)) h2
    exact ⟨e, .bind (readVal_same off hA (hb R off (List.mem_cons_self ..)) h0) (.bind ih (.inl rfl))⟩
  | .normal _ _ :: fs, xs, s1, hb, h => readLengths_same hA fs (fun R off hf => hb R off (List.mem_cons_of_mem _ hf)) h
  | .varlen _ :: fs, xs, s1, hb, h => readLengths_same hA fs (fun R off hf => hb R off (List.mem_cons_of_mem _ hf)) h
  | .array _ _ :: fs, xs, s1, hb, h => readLengths_same hA fs (fun R off hf => hb R off (List.mem_cons_of_mem _ hf)) h

theorem mem_sems_length {R : RTy} {off : Nat} : {fs : List (TyFld w)} → Fld.length R off ∈ TyFld.sems fs → ∃ P : Plain, .length P off ∈ fs ∧ R = P.ty
  | f :: fs, h => by
    rcases List.mem_cons.1 h with e | h
    · cases f <;> cases e
      exact ⟨_, List.mem_cons_self .., rfl⟩
    · obtain ⟨P, h1, h2⟩ := mem_sems_length (fs := fs) h
      exact ⟨P, List.mem_cons_of_mem _ h1, h2⟩

theorem catFieldFast_same {T : VarLen w} {cur o size : BitVec w} {l : Layout w} {s1 : St} (hA : K → Allows s p s' p')
    (hT : ∀ s1, T.calculateLayout (p.add o.toNat) s = .ok l s1 → s1 = s ∧ SameOut K l s' (T.calculateLayout (p'.add o.toNat) s'))
    (h : catFieldFast T p cur s = .ok (o, l, size) s1) : s1 = s ∧ SameOut K (o, l, size) s' (catFieldFast T p' cur s') := by
  unfold catFieldFast at h ⊢
  obtain ⟨_, s0, h0, h⟩ := bind_ok_inv h
  obtain ⟨l', s2, h2, h⟩ := bind_ok_inv h
  cases h
  have e0 := (mkRef_inv h0).1
  subst e0
  obtain ⟨rfl, hT'⟩ := hT _ h2
  exact ⟨rfl, .bind (mkRef_same _ hA h0) (.bind hT' (.inl rfl))⟩

mutual
theorem layout_same : (T : Ty w) → {s : St} → {p : Ptr} → {s' : St} → {p' : Ptr} → {l : Layout w} → {s1 : St} → (K → Allows s p s' p') →
    (∀ i, Controls T l i → viewAt s p i = viewAt s' p' i) → T.sem.calculateLayout p s = .ok l s1 → s1 = s ∧ SameOut K l s' (T.sem.calculateLayout p' s')
  | .fixedLen P, s, p, s', p', l, s1, hA, hc, h => by cases h; exact ⟨rfl, .inl rfl⟩
  | .array P L, s, p, s', p', l, s1, hA, hc, h => by
    obtain ⟨x, s0, h0, h⟩ := bind_ok_inv (x := readVal L.ty p) h
    cases h
    obtain ⟨rfl, _⟩ := readVal_inv h0
    exact ⟨rfl, .bind (readVal_same 0 hA (fun i hi => by rw [Nat.zero_add]; exact hc i (.array hi)) h0) (.inl rfl)⟩
  | .str L, s, p, s', p', l, s1, hA, hc, h => by
    obtain ⟨x, s0, h0, h⟩ := bind_ok_inv (x := readVal L.ty p) h
    cases h
    obtain ⟨rfl, _⟩ := readVal_inv h0
    exact ⟨rfl, .bind (readVal_same 0 hA (fun i hi => by rw [Nat.zero_add]; exact hc i (.str hi)) h0) (.inl rfl)⟩
  | .newtype T, s, p, s', p', l, s1, hA, hc, h => layout_same T hA (fun i hi => hc i (.newtype hi)) h
  | .tuple Ts, s, p, s', p', l, s1, hA, hc, h => by
    obtain ⟨lens, s0, h0, h⟩ := bind_ok_inv (x := readLengths p ((Ty.sems Ts).map .varlen)) h
    obtain ⟨⟨ls, size⟩, s2, h2, h⟩ := bind_ok_inv h
    cases h
    have hn : ∀ R off, Fld.length R off ∈ (Ty.sems Ts).map Fld.varlen → ∀ i, i < R.size → viewAt s p (off + i) = viewAt s' p' (off + i) := fun R off hf => by
      obtain ⟨T, _, e⟩ := List.mem_map.1 hf; cases e
    obtain ⟨rfl, hl⟩ := readLengths_same hA _ hn h0
    obtain ⟨rfl, hr⟩ := tys_same Ts lens hA (fun k T off l i h1 h2 h3 => hc _ (.tuple h1 h2 h3)) h2
    exact ⟨rfl, .bind hl (.bind hr (.inl rfl))⟩
  | .struct hs ha fs, s, p, s', p', l, s1, hA, hc, h => by
    obtain ⟨lens, s0, h0, h⟩ := bind_ok_inv (x := readLengths p (TyFld.sems fs)) h
    obtain ⟨⟨ls, size⟩, s2, h2, h⟩ := bind_ok_inv h
    cases h
    have hn : ∀ R off, Fld.length R off ∈ TyFld.sems fs → ∀ i, i < R.size → viewAt s p (off + i) = viewAt s' p' (off + i) := fun R off hf i hi => by
      obtain ⟨P, hP, rfl⟩ := mem_sems_length hf
      exact hc _ (.length hP hi)
    obtain ⟨rfl, hl⟩ := readLengths_same hA _ hn h0
    obtain ⟨rfl, hr⟩ := flds_same fs lens hA (fun k T off l i h1 h2 h3 => hc _ (.varlen h1 h2 h3)) h2
    exact ⟨rfl, .bind hl (.bind hr (.inl rfl))⟩
theorem tys_same : (Ts : List (Ty w)) → (lens : List Img) → {s : St} → {p : Ptr} → {s' : St} → {p' : Ptr} → {cur size : BitVec w} → {ls : List (BitVec w × Layout w)} → {s1 : St} → (K → Allows s p s' p') →
    (∀ (k : Nat) (T : Ty w) (off : BitVec w) (l : Layout w) (i : Nat), Ts[k]? = some T → ls[k]? = some (off, l) → Controls T l i → viewAt s p (off.toNat + i) = viewAt s' p' (off.toNat + i)) →
    catFieldsFast p lens ((Ty.sems Ts).map .varlen) cur s = .ok (ls, size) s1 → s1 = s ∧ SameOut K (ls, size) s' (catFieldsFast p' lens ((Ty.sems Ts).map .varlen) cur s')
  | [], lens, s, p, s', p', cur, size, ls, s1, hA, hc, h => by cases h; exact ⟨rfl, .inl rfl⟩
  | T :: Ts, lens, s, p, s', p', cur, size, ls, s1, hA, hc, h => by
    obtain ⟨⟨o, l, cur'⟩, s0, h0, h⟩ := bind_ok_inv (x := catFieldFast T.sem p cur) h
    obtain ⟨⟨ls', size'⟩, s2, h2, h⟩ := bind_ok_inv h
    cases h
    obtain ⟨rfl, hx⟩ := catFieldFast_same hA (fun s1 hs => layout_same T (fun k => (hA k).add _)
      (fun i hi => by rw [viewAt_add, viewAt_add]; exact hc 0 T o l i rfl rfl hi) hs) h0
    obtain ⟨rfl, hr⟩ := tys_same Ts lens hA (fun k T off l i h1 h2 h3 => hc (k + 1) T off l i (by simpa using h1) (by simpa using h2) h3) h2
    exact ⟨rfl, .bind hx (.bind hr (.inl rfl))⟩
theorem flds_same : (fs : List (TyFld w)) → (lens : List Img) → {s : St} → {p : Ptr} → {s' : St} → {p' : Ptr} → {cur size : BitVec w} → {ls : List (BitVec w × Layout w)} → {s1 : St} → (K → Allows s p s' p') →
    (∀ (k : Nat) (T : Ty w) (off : BitVec w) (l : Layout w) (i : Nat), (fs.filter TyFld.isTail)[k]? = some (.varlen T) → ls[k]? = some (off, l) → Controls T l i →
      viewAt s p (off.toNat + i) = viewAt s' p' (off.toNat + i)) →
    catFieldsFast p lens (TyFld.sems fs) cur s = .ok (ls, size) s1 → s1 = s ∧ SameOut K (ls, size) s' (catFieldsFast p' lens (TyFld.sems fs) cur s')
  | [], lens, s, p, s', p', cur, size, ls, s1, hA, hc, h => by cases h; exact ⟨rfl, .inl rfl⟩
  | .normal P off :: fs, lens, s, p, s', p', cur, size, ls, s1, hA, hc, h => flds_same fs lens hA hc h
  | .length P off :: fs, lens, s, p, s', p', cur, size, ls, s1, hA, hc, h => flds_same fs lens hA hc h
  | .varlen T :: fs, lens, s, p, s', p', cur, size, ls, s1, hA, hc, h => by
    obtain ⟨⟨o, l, cur'⟩, s0, h0, h⟩ := bind_ok_inv (x := catFieldFast T.sem p cur) h
    obtain ⟨⟨ls', size'⟩, s2, h2, h⟩ := bind_ok_inv h
    cases h
    obtain ⟨rfl, hx⟩ := catFieldFast_same hA (fun s1 hs => layout_same T (fun k => (hA k).add _)
      (fun i hi => by rw [viewAt_add, viewAt_add]; exact hc 0 T o l i rfl rfl hi) hs) h0
    obtain ⟨rfl, hr⟩ := flds_same fs lens hA (fun k T off l i h1 h2 h3 => hc (k + 1) T off l i (by rw [List.filter_cons_of_pos rfl]; simpa using h1) (by simpa using h2) h3) h2
    exact ⟨rfl, .bind hx (.bind hr (.inl rfl))⟩
  | .array P len :: fs, lens, s, p, s', p', cur, size, ls, s1, hA, hc, h => by
    obtain ⟨m, s0, h0, h⟩ := bind_ok_inv (x := len.eval lens) h
    obtain ⟨⟨ls', size'⟩, s2, h2, h⟩ := bind_ok_inv (x := catFieldsFast p lens (TyFld.sems fs) _) h
    cases h
    have hd : len.defd lens = true ∧ m = len lens ∧ s0 = s := by
      unfold LenFn.eval at h0
      split at h0
      · cases h0; exact ⟨by assumption, rfl, rfl⟩
      · cases h0
    obtain ⟨hd, rfl, rfl⟩ := hd
    obtain ⟨rfl, hr⟩ := flds_same fs lens hA (fun k T off l i h1 h2 h3 => hc (k + 1) T off l i (by rw [List.filter_cons_of_pos rfl]; simpa using h1) (by simpa using h2) h3) h2
    exact ⟨rfl, .bind (x' := len.eval lens) (a := len lens) (.inl (by rw [LenFn.eval, if_pos hd]; rfl)) (.bind hr (.inl rfl))⟩
end
end

theorem SameBlocks.allows {s s' : St} (h : SameBlocks s s') (p : Ptr) (hp : s.blk p.blk ≠ none) : Allows s p s' p := by
  obtain ⟨B, hB⟩ := Option.ne_none_iff_exists'.1 hp
  obtain ⟨d, hd⟩ := h _ _ hB
  intro off
  refine ⟨fun n hn => ?_, fun a ha => ?_⟩
  · rcases hn with hn | ⟨B', h1, h2, h3⟩
    · exact .inl hn
    · refine .inr ⟨_, hd, ?_⟩
      have : (p.add off).blk = p.blk := rfl
      rw [this, hB] at h1
      cases h1
      exact ⟨h2, h3⟩
  · have : s'.addr (p.add off) = s.addr (p.add off) := by simp [St.addr, Ptr.add, hB, hd]
    unfold Aligned; rw [this]; exact ha

/-- Changes of memory that leave alone the bytes of an object's lengths leave its layout (size included) alone, whatever they do to all its other bytes: overwritten, moved out of, uninitialised, the layout is still computed,
without undefined behaviour, and is the same. -/
theorem C68_layout_depends_on_lengths {T : Ty w} (hT : LibType T.sem) {s s' : St} {p : Ptr} {v : V} {l : Layout w} (h : Valid T.sem s p v l) (hp : s.blk p.blk ≠ none) (hs : SameBlocks s s')
    (hc : ∀ i, Controls T l i → viewAt s' p i = viewAt s p i) : T.sem.calculateLayout p s' = .ok l s' := by
  have h1 := hT.lawful.calc_ok s p v l h
  obtain ⟨_, h2⟩ := layout_same (K := True) T (fun _ => hs.allows p hp) (fun i hi => (hc i hi).symm) h1
  rcases h2 with h2 | ⟨hk, _⟩
  · exact h2
  · exact absurd trivial hk

/-- Two objects of a type whose lengths agree have the same layout, wherever they are and whatever else they contain. -/
theorem C68_same_lengths_same_layout {T : Ty w} (hT : LibType T.sem) {s s' : St} {p p' : Ptr} {v v' : V} {l l' : Layout w} (h : Valid T.sem s p v l) (h' : Valid T.sem s' p' v' l')
    (hc : ∀ i, Controls T l i → viewAt s p i = viewAt s' p' i) : l' = l := by
  have h1 := hT.lawful.calc_ok s p v l h
  have h1' := hT.lawful.calc_ok s' p' v' l' h'
  obtain ⟨_, h2⟩ := layout_same (K := False) T (fun k => k.elim) hc h1
  rcases h2 with h2 | ⟨_, k, h2⟩
  · rw [h1'] at h2; cases h2; rfl
  · rw [h1'] at h2; cases h2


theorem Ty.sems_eq : (Ts : List (Ty w)) → Ty.sems Ts = Ts.map Ty.sem
  | [] => rfl
  | T :: Ts => by rw [Ty.sems, Ty.sems_eq Ts]; rfl
theorem TyFld.sems_eq : (fs : List (TyFld w)) → TyFld.sems fs = fs.map TyFld.sem
  | [] => rfl
  | f :: fs => by rw [TyFld.sems, TyFld.sems_eq fs]; rfl
theorem mem_sems_varlen {T : VarLen w} {fs : List (TyFld w)} (h : Fld.varlen T ∈ TyFld.sems fs) : ∃ T' : Ty w, .varlen T' ∈ fs ∧ T = T'.sem := by
  rw [TyFld.sems_eq] at h
  obtain ⟨f, hf, e⟩ := List.mem_map.1 h
  cases f <;> cases e
  exact ⟨_, hf, rfl⟩

theorem TyOk.lib {T : Ty w} (h : TyOk T) : LibType T.sem := by
  induction h with
  | fixedLen h => exact .fixedLen h
  | array h1 h2 => exact .array h1 h2
  | str h1 h2 => exact .str h1 h2
  | newtype _ ih => exact .newtype ih
  | @tuple Ts hne _ ih =>
    refine .tuple (by rw [Ty.sems_eq]; simpa using hne) fun T hT => ?_
    rw [Ty.sems_eq] at hT
    obtain ⟨T', hT', rfl⟩ := List.mem_map.1 hT
    exact ih T' hT'
  | struct hh _ ih =>
    refine .struct hh fun T hT => ?_
    obtain ⟨T', hT', rfl⟩ := mem_sems_varlen hT
    exact ih T' hT'

/-- A nested object lies in the tail. -/
theorem RepTails.nth {hs ha : Nat} {lens : List Img} {o : View} : ∀ (fs : List (TyFld w)) vs ls cur fin, (∀ f ∈ TyFld.sems fs, f.Ok hs ha) → RepTails lens (TyFld.sems fs) vs ls cur fin o →
    ∀ (k : Nat) (T : Ty w) (off : BitVec w) (l : Layout w), (fs.filter TyFld.isTail)[k]? = some (.varlen T) → ls[k]? = some (off, l) →
    (∃ v, T.sem.Rep v l (shift off.toNat o)) ∧ off.toNat + l.size.toNat ≤ fin := by
  intro fs
  induction fs with
  | nil => intro vs ls cur fin _ _ k T off l h; simp at h
  | cons f fs ih =>
    intro vs ls cur fin hok h k T off l hk hl
    have hok' : ∀ f ∈ TyFld.sems fs, f.Ok hs ha := fun g hg => hok g (List.mem_cons_of_mem _ hg)
    cases vs with
    | nil => cases f <;> simp [TyFld.sems, TyFld.sem, RepTails] at h
    | cons v vs =>
      cases f with
      | normal P off' => simp only [TyFld.sems, TyFld.sem, RepTails] at h; exact ih _ _ _ _ hok' h k T off l hk hl
      | length P off' => simp only [TyFld.sems, TyFld.sem, RepTails] at h; exact ih _ _ _ _ hok' h k T off l hk hl
      | varlen T' =>
        rw [List.filter_cons_of_pos rfl] at hk
        rcases ls with _ | ⟨⟨o', l'⟩, ls⟩
        · simp at hl
        · simp only [TyFld.sems, TyFld.sem, RepTails] at h
          cases k with
          | zero =>
            simp only [List.getElem?_cons_zero, Option.some.injEq, TyFld.varlen.injEq, Prod.mk.injEq] at hk hl
            obtain ⟨rfl, rfl⟩ := hl
            subst hk
            exact ⟨⟨v, h.1.2⟩, RepTails.le _ _ _ _ _ hok' h.2⟩
          | succ k => exact ih _ _ _ _ hok' h.2 k T off l (by simpa using hk) (by simpa using hl)
      | array P len =>
        rw [List.filter_cons_of_pos rfl] at hk
        rcases ls with _ | ⟨⟨o', l'⟩, ls⟩
        · simp at hl
        · cases v <;> cases l' <;> simp only [TyFld.sems, TyFld.sem, RepTails] at h
          cases k with
          | zero => simp at hk
          | succ k => exact ih _ _ _ _ hok' h.2 k T off l (by simpa using hk) (by simpa using hl)

/-- The bytes of the lengths are bytes of the object. -/
theorem C68_lengths_in_object {T : Ty w} (hT : TyOk T) {s : St} {p : Ptr} {v : V} {l : Layout w} (h : Valid T.sem s p v l) {i : Nat} (hc : Controls T l i) : i < l.size.toNat := by
  have key : ∀ {T : Ty w} {l : Layout w} {i : Nat}, Controls T l i → TyOk T → ∀ v o, T.sem.Rep v l o → i < l.size.toNat := by
    intro T l i hc
    induction hc with
    | @array P L l i hi =>
      intro hT v o h
      have := hT.lib.lawful.head_le v l o h
      simp only [Ty.sem, Array] at this
      omega
    | @str L l i hi =>
      intro hT v o h
      have := hT.lib.lawful.head_le v l o h
      simp only [Ty.sem, Str, NewtypeInv, Array] at this
      omega
    | newtype _ ih => intro hT v o h; cases hT with | newtype hT => exact ih hT v o h.1
    | @tuple Ts size ls k T off l i hk hl _ ih =>
      intro hT v o h
      have hlib := hT.lib
      cases hT with
      | tuple hne hTs =>
        obtain ⟨vs, ls', size', rfl, e, _, h⟩ := h
        cases e
        have e : (Ty.sems Ts).map Fld.varlen = TyFld.sems (Ts.map .varlen) := by rw [Ty.sems_eq, TyFld.sems_eq]; simp [TyFld.sem]
        rw [e] at h
        have hok : ∀ f ∈ TyFld.sems (Ts.map TyFld.varlen), f.Ok 0 1 := by
          intro f hf
          rw [TyFld.sems_eq, List.map_map] at hf
          obtain ⟨T', hT', rfl⟩ := List.mem_map.1 hf
          exact (hTs T' hT').lib.lawful
        obtain ⟨⟨v', h'⟩, hle⟩ := RepTails.nth _ _ _ _ _ hok h k T off l (by
          rw [List.filter_eq_self.2 (by simp [TyFld.isTail])]; simp [hk]) hl
        have := ih (hTs T (List.mem_of_getElem? hk)) v' _ h'
        simp only [Layout.size]
        omega
    | @length hs ha fs l P off i hf hi =>
      intro hT v o h
      have := hT.lib.lawful.head_le v l o h
      simp only [Ty.sem, Struct] at this
      cases hT with
      | struct hh _ =>
        have := (hh.length P.ty off (by rw [TyFld.sems_eq]; exact List.mem_map.2 ⟨_, hf, rfl⟩)).2.1
        omega
    | @varlen hs ha fs size ls k T off l i hk hl _ ih =>
      intro hT v o h
      cases hT with
      | struct hh hTs =>
        obtain ⟨vs, ls', size', rfl, e, _, h⟩ := h
        cases e
        have hok := (hh.structOk fun T hT => by
          obtain ⟨T', hT', rfl⟩ := mem_sems_varlen hT
          exact (hTs T' hT').lib.lawful).flds
        obtain ⟨⟨v', h'⟩, hle⟩ := RepTails.nth _ _ _ _ _ hok h k T off l hk hl
        have := ih (hTs T (List.mem_filter.1 (List.mem_of_getElem? hk)).1) v' _ h'
        simp only [Layout.size]
        omega
  exact key hc hT v _ h.rep

/-- A type without lengths has one layout: all its objects have the same size. -/
theorem C68_no_lengths {T : Ty w} (hT : LibType T.sem) (hn : ∀ l i, ¬ Controls T l i) {s s' : St} {p p' : Ptr} {v v' : V} {l l' : Layout w} (h : Valid T.sem s p v l) (h' : Valid T.sem s' p' v' l') : l' = l :=
  C68_same_lengths_same_layout hT h h' fun i hi => absurd hi (hn l i)

namespace Demo

theorem sT_ok : TyOk sT := .struct sHeader (fun T hT => by
  simp at hT
  subst hT
  exact .array D4_ok lenU16_ok)

/-- The lengths of the demo struct: the byte of its `#[controls_layout]` field and the two-byte lengths of the nested arrays. -/
theorem sT_controls {i : Nat} (h : Controls sT sLay i) : i ∈ [4, 8, 9, 24, 25] := by
  have two : ∀ {l : Layout 64} {j : Nat}, Controls (.array guardP lenU16) l j → j < 2 := fun h => by cases h; assumption
  generalize hl : sLay = l at h
  cases h with
  | length hf hi =>
    simp at hf
    obtain ⟨rfl, rfl⟩ := hf
    have : u8Plain.ty.size = 1 := rfl
    rw [this] at hi
    simp; omega
  | @varlen _ _ _ _ _ k T off l j hk hl' hc =>
    cases hl
    match k, hk, hl' with
    | 0, hk, hl' =>
      have e : TyFld.varlen (.array guardP lenU16) = TyFld.varlen T := Option.some.inj hk
      cases e; cases hl'
      have := two hc
      simp; omega
    | 1, hk, _ =>
      have e : TyFld.array u8Plain u8Len = TyFld.varlen T := Option.some.inj hk
      cases e
    | 2, hk, hl' =>
      have e : TyFld.varlen (.array guardP lenU16) = TyFld.varlen T := Option.some.inj hk
      cases e; cases hl'
      have := two hc
      simp; omega
    | k + 3, _, hl' => cases hl'

/-- The memory of the demo struct with all bytes but those uninitialised. -/
def sGone : St := { sSt with blocks := sSt.blocks.map fun B => { B with data := fun i => if i ∈ [4, 8, 9, 24, 25] then B.data i else none } }

theorem sGone_same : SameBlocks sSt sGone := fun b B hB => by
  cases b with
  | zero => cases hB
  | succ b =>
    have hB : sSt.blocks[b]? = some B := hB
    exact ⟨fun i => if i ∈ [4, 8, 9, 24, 25] then B.data i else none, by simp [St.blk, sGone, hB]⟩

example : S.calculateLayout p1 sGone = .ok sLay sGone := by
  have hb : sSt.blk 1 ≠ none := by
    have := sSt_valid.acc
    rcases this with h | ⟨B, h, _⟩
    · exact absurd h (by decide)
    · have h : sSt.blk 1 = some B := h
      rw [h]; simp
  refine C68_layout_depends_on_lengths sT_ok.lib sSt_valid hb sGone_same fun i hi => ?_
  have hm := sT_controls hi
  have hk : ∀ B, sSt.blk 1 = some B → sGone.blk 1 = some { B with data := fun i => if i ∈ [4, 8, 9, 24, 25] then B.data i else none } := fun B hB => by
    have hB : sSt.blocks[0]? = some B := hB
    simp [St.blk, sGone, hB]
  obtain ⟨B, hB⟩ := Option.ne_none_iff_exists'.1 hb
  have e1 : viewAt sSt p1 i = B.data i := by simp [viewAt, p1, hB]
  have e2 : viewAt sGone p1 i = B.data i := by
    simp only [viewAt, p1, hk B hB, Nat.zero_add]
    rw [if_pos hm]
  rw [e1, e2]

-- the lengths are among the 32 bytes of the object, and there are some
example : Controls sT sLay 24 ∧ 24 < sLay.size.toNat :=
  have h : Controls sT sLay 24 := .varlen (k := 2) (T := .array guardP lenU16) (off := 24) (i := 0) rfl rfl (.array (by decide))
  ⟨h, C68_lengths_in_object sT_ok sSt_valid h⟩

-- a type without lengths: a struct with a nested tuple of fixed-size values
example : ∀ (l : Layout 64) (i : Nat), ¬ Controls (.struct 4 4 [.normal guardP 0, .varlen (.tuple [.fixedLen guardP, .newtype (.fixedLen u8Plain)])]) l i := by
  intro l i h
  cases h with
  | length hf => simp at hf
  | @varlen _ _ _ _ _ k T _ _ _ hk _ hc =>
    have hT := (List.mem_filter.1 (List.mem_of_getElem? hk)).1
    simp at hT
    subst hT
    cases hc with
    | tuple hk _ hc =>
      have hT := List.mem_of_getElem? hk
      simp at hT
      rcases hT with rfl | rfl
      · cases hc
      · cases hc with | newtype hc => cases hc

end Demo
end Varlen
