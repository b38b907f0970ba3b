import Verif.Spec.Paths
import Verif.Props.Controls
import Verif.Props.Str
import Verif.Props.Struct
/-! # Following references into an object: proofs -/
namespace Varlen
variable {w : Nat}

/-- The type is well formed. -/
def Kind.Ok : Kind w → Prop
  | .obj T => TyOk T
  | .val P => P.ty.Ok w
  | .slice P => P.ty.Ok w

theorem modify_eq_set {α : Type} {l : List α} {i : Nat} {f : α → α} {a : α} (h : l[i]? = some a) : l.modify i f = l.set i (f a) := by
  apply List.ext_getElem?
  intro j
  rw [List.getElem?_modify, List.getElem?_set]
  by_cases e : i = j
  · subst e
    obtain ⟨hl, rfl⟩ := List.getElem?_eq_some_iff.1 h
    simp [hl]
  · simp [e]

theorem V.put_fld {vs : List V} {i : Nat} {v : V} (h : vs[i]? = some v) (π : List Sel) (x : V) : V.put (.node vs) (.fld i :: π) x = .node (vs.set i (v.put π x)) := by
  rw [V.put, modify_eq_set h]

theorem V.put_elem {xs : List Img} {i : Nat} {a : Img} (h : xs[i]? = some a) (π : List Sel) (x : V) :
    V.put (.arr xs) (.elem i :: π) x = .arr (xs.set i ((V.put (.leaf a) π x).leafOr a)) := by
  rw [V.put, modify_eq_set h]

theorem V.put_cons {v v' : V} {c : Sel} (h : v.part c = some v') (π : List Sel) (x : V) : v.put (c :: π) x = v.put [c] (v'.put π x) := by
  cases c with
  | val => cases v <;> cases h <;> rfl
  | slice => cases v <;> cases h <;> rfl
  | inner => cases v <;> cases h <;> rfl
  | fld i =>
    cases v with
    | leaf a => cases h
    | arr xs => cases h
    | node vs => rw [V.put_fld h, V.put_fld h]; rfl
  | elem i =>
    cases v with
    | leaf a => cases h
    | node vs => cases h
    | arr xs =>
      obtain ⟨a, ha, rfl⟩ := Option.map_eq_some_iff.1 h
      rw [V.put_elem ha, V.put_elem ha]; rfl

theorem Within.refl (p : Ptr) (n : Nat) : Within p n p n := ⟨rfl, Nat.le_refl _, Nat.le_refl _⟩
theorem Within.trans {p q r : Ptr} {a b c : Nat} (h : Within p a q b) (h' : Within q b r c) : Within p a r c := by
  refine ⟨h.1.trans h'.1, ?_⟩
  have h1 := h.2
  have h2 := h'.2
  omega
theorem Within.touch {s s' : St} {p q : Ptr} {n m : Nat} (h : Within q n p m) (ht : Touch s s' q n (fun _ => False)) : Touch s s' p m (fun _ => False) :=
  ht.mono (.inr ⟨h.1, h.2⟩) fun _ h => h

/-- The destructor effects of a field. -/
def Fld.owed : Fld w → V → List Event
  | .normal R _, .leaf a => R.drops a
  | .length R _, .leaf a => R.drops a
  | .varlen T, v => T.drops v
  | .array R _, .arr xs => xs.flatMap R.drops
  | _, _ => []

/-- The value has the form that those of the field have. -/
def Fld.Fits : Fld w → V → Prop
  | .normal _ _, v => ∃ a, v = .leaf a
  | .length _ _, v => ∃ a, v = .leaf a
  | .varlen _, _ => True
  | .array _ _, v => ∃ xs, v = .arr xs

theorem Sees.fits {f : Fld w} {s : St} {r : FRef} {v : V} {sh : Layout w} (h : Sees f s r v sh) : f.Fits v := by
  cases f <;> cases r <;> first | exact h.elim | skip
  · obtain ⟨_, _, a, e, _⟩ := h; exact ⟨a, e⟩
  · obtain ⟨_, _, a, e, _⟩ := h; exact ⟨a, e⟩
  · trivial
  · obtain ⟨xs, _, e, _⟩ := h; exact ⟨xs, e⟩

theorem fieldDrops_cons {f : Fld w} {fs : List (Fld w)} {v : V} {vs : List V} (h : f.Fits v) : fieldDrops (f :: fs) (v :: vs) = f.owed v ++ fieldDrops fs vs := by
  cases f with
  | normal R off => obtain ⟨a, rfl⟩ := h; rfl
  | length R off => obtain ⟨a, rfl⟩ := h; rfl
  | varlen T => rfl
  | array R len => obtain ⟨xs, rfl⟩ := h; rfl

theorem fieldDrops_set : ∀ {fs : List (Fld w)} {vs : List V} {i : Nat} {f : Fld w} {v x : V}, fs[i]? = some f → vs[i]? = some v →
    (∀ (j : Nat) g u, fs[j]? = some g → vs[j]? = some u → g.Fits u) → f.Fits x → (f.owed v ++ fieldDrops fs (vs.set i x)).Perm (fieldDrops fs vs ++ f.owed x)
  | [], _, _, _, _, _, hf, _, _, _ => by simp at hf
  | _ :: _, [], _, _, _, _, _, hv, _, _ => by simp at hv
  | g :: fs, u :: vs, 0, f, v, x, hf, hv, hall, hx => by
    simp only [List.getElem?_cons_zero, Option.some.injEq] at hf hv
    subst hf hv
    rw [List.set_cons_zero, fieldDrops_cons hx, fieldDrops_cons (hall 0 _ _ rfl rfl), List.append_assoc]
    exact (List.perm_append_comm).append_left _
  | g :: fs, u :: vs, i + 1, f, v, x, hf, hv, hall, hx => by
    simp only [List.getElem?_cons_succ] at hf hv
    have ih := fieldDrops_set hf hv (fun j g u h1 h2 => hall (j + 1) g u (by simpa using h1) (by simpa using h2)) hx
    have hg : g.Fits u := hall 0 _ _ rfl rfl
    rw [List.set_cons_succ, fieldDrops_cons hg, fieldDrops_cons hg, List.append_assoc]
    refine List.Perm.trans ?_ (ih.append_left _)
    rw [← List.append_assoc, ← List.append_assoc]
    exact (List.perm_append_comm).append_right _

theorem flatMap_set {α β : Type} {f : α → List β} : ∀ {xs : List α} {i : Nat} {a b : α}, xs[i]? = some a → (f a ++ (xs.set i b).flatMap f).Perm (xs.flatMap f ++ f b)
  | [], _, _, _, h => by simp at h
  | x :: xs, 0, a, b, h => by
    simp only [List.getElem?_cons_zero, Option.some.injEq] at h
    subst h
    simp only [List.set_cons_zero, List.flatMap_cons, List.append_assoc]
    exact (List.perm_append_comm).append_left _
  | x :: xs, i + 1, a, b, h => by
    have ih := flatMap_set (f := f) (b := b) (show xs[i]? = some a by simpa using h)
    simp only [List.set_cons_succ, List.flatMap_cons, List.append_assoc]
    refine List.Perm.trans ?_ (ih.append_left _)
    rw [← List.append_assoc, ← List.append_assoc]
    exact (List.perm_append_comm).append_right _

/-- A component of `Refs`/`Muts`. -/
theorem component_ok {m : Bool} {hs : Nat} {fs : List (Fld w)} {p : Ptr} {s : St} {rs : List FRef} {i : Nat} {f : Fld w} {r : FRef} (h1 : aggRefs hs fs p s = .ok rs s)
    (h2 : aggMuts hs fs p s = .ok ((fs.map Fld.mutable).zip rs) s) (hf : fs[i]? = some f) (hr : rs[i]? = some r) (hm : m = true → f.mutable = true) :
    component m hs fs i p s = .ok r s := by
  unfold component
  cases m with
  | false => simp [bind_apply, h1, hr]
  | true =>
    simp only [if_true, bind_apply, h2, Res.bind_ok]
    have : ((fs.map Fld.mutable).zip rs)[i]? = some (true, r) := by
      rw [List.getElem?_zip_eq_some]
      exact ⟨by rw [List.getElem?_map, hf]; simp [hm rfl], hr⟩
    rw [this]
    rfl

/-- The `Refs`/`Muts` step for structs and tuples alike. -/
theorem component_spec {T : VarLen w} {hs : Nat} {fs : List (Fld w)} {s : St} {p : Ptr} {vs : List V} {l : Layout w} {rs : List FRef} {shapes : List (Layout w)}
    (h1 : aggRefs hs fs p s = .ok rs s) (h2 : aggMuts hs fs p s = .ok ((fs.map Fld.mutable).zip rs) s) (ha : Access T fs s p vs l rs shapes) {m : Bool} {i : Nat} {f : Fld w}
    (hf : fs[i]? = some f) (hm : m = true → f.mutable = true) :
    ∃ r v' sh', component m hs fs i p s = .ok r s ∧ rs[i]? = some r ∧ vs[i]? = some v' ∧ shapes[i]? = some sh' ∧ Sees f s r v' sh' ∧ Within r.ptr (f.extent sh') p l.size.toNat ∧
      (f.mutable = true → ∀ s' x, Touch s s' r.ptr (f.extent sh') (fun _ => False) → Sees f s' r x sh' → Valid T s' p (.node (vs.set i x)) l) ∧
      ∀ s' x, Sees f s' r x sh' → (f.owed v' ++ fieldDrops fs (vs.set i x)).Perm (fieldDrops fs vs ++ f.owed x) := by
  have hi : i < fs.length := (List.getElem?_eq_some_iff.1 hf).1
  have hr : rs[i]? = some (rs[i]'(by rw [ha.rlen]; exact hi)) := List.getElem?_eq_getElem _
  have hv : vs[i]? = some (vs[i]'(by rw [ha.vlen]; exact hi)) := List.getElem?_eq_getElem _
  have hsh : shapes[i]? = some (shapes[i]'(by rw [ha.slen]; exact hi)) := List.getElem?_eq_getElem _
  refine ⟨_, _, _, component_ok h1 h2 hf hr hm, hr, hv, hsh, ha.sees i f _ _ _ hf hr hv hsh, ha.inside i f _ _ hf hr hsh, fun hmu s' x ht hs => ?_, fun s' x hs => ?_⟩
  · exact (ha.write i f _ _ x s' hf hr hsh hmu ht hs).1
  · refine fieldDrops_set hf hv (fun j g u hg hu => ?_) hs.fits
    have hj : j < fs.length := (List.getElem?_eq_some_iff.1 hg).1
    exact (ha.sees j g _ u _ hg (List.getElem?_eq_getElem (by rw [ha.rlen]; exact hj)) hu (List.getElem?_eq_getElem (by rw [ha.slen]; exact hj))).fits

theorem TyFld.kind_sees {f : TyFld w} {s : St} {r : FRef} {v : V} {sh : Layout w} : Sees f.sem s r v sh ↔ f.kind.1.Shows s r v sh := by
  cases f <;> cases r <;> exact Iff.rfl
theorem TyFld.kind_extent (f : TyFld w) (sh : Layout w) : f.sem.extent sh = f.kind.1.bytes sh := by
  cases f <;> cases sh <;> rfl
theorem TyFld.kind_owed (f : TyFld w) (v : V) : f.sem.owed v = f.kind.1.owed v := by
  cases f <;> cases v <;> rfl
theorem TyFld.kind_mutable (f : TyFld w) : f.sem.mutable = f.kind.2 := by cases f <;> rfl

/-- Replacing the elements of an array through its slice. -/
theorem Array.slice_write {R : RTy} {L : LenTy} (hR : R.Ok w) (hL : L.Ok w) {s s' : St} {p : Ptr} {xs ys : List Img} {l : Layout w} {sl : Slice}
    (h : Valid (Array w R L) s p (.arr xs) l) (hd : Array.deref w R L p s = .ok sl s) (ht : Touch s s' sl.ptr (sl.len * R.size) (fun _ => False))
    (hy : elemsV (viewAt s' sl.ptr) 0 R.size sl.len = ys) (hv : ∀ y ∈ ys, R.valid y = true) : Valid (Array w R L) s' p (.arr ys) l := by
  have hc := Array.calc_ok hR hL h
  obtain ⟨ha, hal, off, n, size, zs, hz, rfl, hlv, hn, ho, hs, hx, hxv⟩ := h
  cases hz
  have hge := roundUpN_ge L.bytes R.align hR.align_pos
  have hal' : Aligned s (p.add off.toNat) R.align := (hal.of_dvd (Array.align_spec hR hL).2.2).add (by rw [ho]; exact roundUpN_mod _ _)
  simp only [Layout.size] at ha
  have ha' : Acc s (p.add off.toNat) (n.toNat * R.size) := ha.sub (by omega)
  have hsl : sl = ⟨p.add off.toNat, n.toNat⟩ := by
    simp only [Array.deref, bind_apply, hc, Res.bind_ok, refArray, mkRef_ok ha' hal', pure_apply] at hd
    injection hd with hd
    exact hd.symm
  subst hsl
  have hhead : takeV (viewAt s' p) 0 L.bytes = takeV (viewAt s p) 0 L.bytes := takeV_congr fun i hi => by
    simp only [Nat.zero_add]
    exact ht.view (fun h => h) i (.inr (.inl (by simp; omega)))
  refine ⟨ht.acc (fun h => h) ha, ht.aligned (fun h => h) hal, off, n, size, ys, rfl, rfl, by rw [hhead]; exact hlv, by rw [hhead]; exact hn, ho, hs, ?_, hv⟩
  rw [← hy, viewAt_add, elemsV_shift]
  simp

theorem FixedLen.shows {R : RTy} (hR : R.Ok w) {s : St} {q : Ptr} {v : V} {sh : Layout w} :
    Valid (FixedLen w R) s q v sh ↔ ∃ x, v = .leaf x ∧ sh = .fixed (R.sizeOf w) ∧ Acc s q R.size ∧ Aligned s q R.align ∧ takeV (viewAt s q) 0 R.size = x ∧ R.valid x = true := by
  constructor
  · rintro ⟨ha, hal, img, rfl, rfl, h1, h2⟩
    simp only [Layout.size, hR.sizeOf_toNat] at ha
    simp only [FixedLen, hR.alignOf_toNat] at hal
    exact ⟨img, rfl, rfl, ha, hal, h1, h2⟩
  · rintro ⟨x, rfl, rfl, ha, hal, h1, h2⟩
    exact ⟨by simpa only [Layout.size, hR.sizeOf_toNat] using ha, by simpa only [FixedLen, hR.alignOf_toNat] using hal, x, rfl, rfl, h1, h2⟩

/-- What one accessor call gives. -/
structure Step1 (m : Bool) (k : Kind w) (c : Sel) (k' : Kind w) (b : Bool) (s : St) (r : FRef) (v : V) (sh : Layout w) (v' : V) (r' : FRef) (sh' : Layout w) : Prop where
  run : access m k c r s = .ok r' s
  shows : k'.Shows s r' v' sh'
  inside : Within r'.ptr (k'.bytes sh') r.ptr (k.bytes sh)
  write : b = true → ∀ s' x, Touch s s' r'.ptr (k'.bytes sh') (fun _ => False) → k'.Shows s' r' x sh' → k.Shows s' r (v.put [c] x) sh
  owed : ∀ s' x, k'.Shows s' r' x sh' → (k'.owed v' ++ k.owed (v.put [c] x)).Perm (k.owed v ++ k'.owed x)

theorem access_step {m : Bool} {k k' : Kind w} {c : Sel} {b : Bool} (hk : k.Ok) (hsel : k.sel c = some (k', b)) (hm : m = true → b = true) {s : St} {r : FRef} {v : V} {sh : Layout w}
    (h : k.Shows s r v sh) :
    k'.Ok ∧ ((v.part c = none ∧ access m k c r s = .panic .outOfBounds s ∧ ∃ xs i, v = .arr xs ∧ c = .elem i ∧ xs.length ≤ i) ∨ ∃ v' r' sh', v.part c = some v' ∧ Step1 m k c k' b s r v sh v' r' sh') := by
  match k, c, r, hsel, h, hk with
  | .obj (.fixedLen P), .val, .field p, hsel, h, hk =>
    cases hsel
    obtain ⟨hR⟩ : P.ty.Ok w ∧ True := by cases hk; exact ⟨by assumption, trivial⟩
    obtain ⟨x, rfl, rfl, ha, hal, h1, h2⟩ := (FixedLen.shows hR).1 h
    refine ⟨hR, .inr ⟨_, .val p, _, rfl, ?_, h, ?_, fun _ s' y _ hs => hs, fun s' y hs => ?_⟩⟩
    · simp [access, bind_apply, mkRef_ok ha hal]
    · simp only [Kind.bytes, Layout.size, hR.sizeOf_toNat]; exact Within.refl _ _
    · obtain ⟨y, rfl, _⟩ := (FixedLen.shows hR).1 hs
      exact List.Perm.refl _
  | .obj (.array P L), .slice, .field p, hsel, h, hk =>
    cases hsel
    obtain ⟨hR, hL⟩ : P.ty.Ok w ∧ L.Ok w := by cases hk; exact ⟨by assumption, by assumption⟩
    obtain ⟨xs, rfl⟩ : ∃ xs, v = .arr xs := by obtain ⟨_, _, _, _, _, xs, e, _⟩ := h; exact ⟨xs, e⟩
    obtain ⟨sl, e1, e2, _, e4, e5, e6, e7, e8, e9, e10⟩ := Array.deref_spec hR hL h
    have hlt : sl.len < 2 ^ w := by
      obtain ⟨_, _, off, n, size, ys, hy, rfl, _, hn, _, _, hx, _⟩ := h
      cases hy
      rw [e2, ← hx]; simpa using n.isLt
    have hn : (BitVec.ofNat w sl.len).toNat = sl.len := by simp [Nat.mod_eq_of_lt hlt]
    refine ⟨hR, .inr ⟨_, .slice sl, .len (BitVec.ofNat w sl.len), rfl, ?_, ⟨xs, _, rfl, rfl, hn, e7, e8, e9, e10⟩, ?_, ?_, ?_⟩⟩
    · simp [access, bind_apply, e1]
    · simp only [Kind.bytes, hn, FRef.ptr]
      exact ⟨e4, ⟨by omega, by omega⟩⟩
    · rintro _ s' y ht ⟨ys, n, rfl, hlen, _, _, _, h4, h5⟩
      simp only [Kind.bytes, hn] at ht
      exact Array.slice_write hR hL h e1 ht h4 h5
    · rintro s' y ⟨ys, n, rfl, _⟩
      exact List.Perm.refl _
  | .obj (.str L), .slice, .field p, hsel, h, hk =>
    cases hsel
    obtain ⟨hw, hL⟩ : 1 < w ∧ L.Ok w := by cases hk; exact ⟨by assumption, by assumption⟩
    have hR : u8Ty.Ok w := u8Ty_ok (by omega)
    obtain ⟨xs, rfl, t, ht⟩ : ∃ xs, v = .arr xs ∧ IsUtf8 xs := by
      have h2 := h.rep.2
      cases v with
      | arr xs => exact ⟨xs, rfl, h2⟩
      | leaf _ => exact h2.elim
      | node _ => exact h2.elim
    subst ht
    have hv : Valid (Array w u8Ty L) s p (.arr (strBytes t)) sh := NewtypeInv.valid_inner h
    obtain ⟨sl, e1, e2, e3, e4, e5, e6, e7, e8, e9, e10⟩ := Array.deref_spec hR hL hv
    have hlt : sl.len < 2 ^ w := by
      obtain ⟨_, _, off, n, size, ys, hy, rfl, _, hn, _, _, hx, _⟩ := hv
      cases hy
      rw [e2, ← hx]; simpa using n.isLt
    have hn : (BitVec.ofNat w sl.len).toNat = sl.len := by simp [Nat.mod_eq_of_lt hlt]
    refine ⟨hR, .inr ⟨_, .slice sl, .len (BitVec.ofNat w sl.len), rfl, ?_, ⟨strBytes t, _, rfl, rfl, hn, e7, e8, e9, e10⟩, ?_, (fun hb => by cases hb), ?_⟩⟩
    · have hd : Str.deref w L p s = .ok sl s := by
        have hu : IsUtf8 (strBytes t) := ⟨t, rfl⟩
        have hi := Newtype.inner_ok (Array.lawful (u8Ty_ok hw) hL) hv
        simp [Str.deref, hi, e1, fromUtf8Unchecked, e3, hu]
      simp [access, bind_apply, hd]
    · simp only [Kind.bytes, hn, FRef.ptr]
      exact ⟨e4, ⟨by omega, by simp only [u8Plain]; omega⟩⟩
    · rintro s' y ⟨ys, n, rfl, _⟩
      exact List.Perm.refl _
  | .obj (.newtype T), .inner, .field p, hsel, h, hk =>
    cases hsel
    have hT : TyOk T := by cases hk; assumption
    have hv : Valid T.sem s p v sh := NewtypeInv.valid_inner h
    refine ⟨hT, .inr ⟨v, .field p, sh, rfl, ?_, hv, Within.refl _ _, fun _ s' y _ hs => ⟨hs.acc, hs.aligned, hs.rep, trivial⟩, fun s' y _ => List.Perm.refl _⟩⟩
    have := ((C39_newtype_transparent hT.lib (s := s) (p := p) (v := v) (l := sh)).2.2.1 h).1
    simp [access, bind_apply, this]
  | .obj (.tuple Ts), .fld i, .field p, hsel, h, hk =>
    obtain ⟨T, hi, e⟩ := Option.map_eq_some_iff.1 hsel
    cases e
    obtain ⟨hne, hT⟩ : Ts ≠ [] ∧ ∀ T ∈ Ts, TyOk T := by cases hk; exact ⟨by assumption, by assumption⟩
    have hl : ∀ T ∈ Ty.sems Ts, Lawful T := by
      intro T hm
      rw [Ty.sems_eq] at hm
      obtain ⟨T', hm', rfl⟩ := List.mem_map.1 hm
      exact (hT T' hm').lib.lawful
    obtain ⟨vs, rs, shapes, rfl, h1, h2, h3⟩ := Tuple.accessIx (by rw [Ty.sems_eq]; simpa using hne) hl h
    have hf : ((Ty.sems Ts).map Fld.varlen)[i]? = some (.varlen T.sem) := by rw [Ty.sems_eq]; simp [hi]
    obtain ⟨r', v', sh', a1, a2, a3, a4, a5, a6, a7, a8⟩ := component_spec h1 h2 h3 hf (m := m) fun _ => rfl
    refine ⟨hT T (List.mem_of_getElem? hi), .inr ⟨v', r', sh', a3, a1, ?_, a6, fun _ s' x ht hs => ?_, fun s' x hs => ?_⟩⟩
    · cases r' with
      | field q => exact a5
      | val q => exact a5.elim
      | slice sl => exact a5.elim
    · rw [V.put_fld a3]
      refine a7 rfl s' x ht ?_
      cases r' with
      | field q => exact hs
      | val q => exact a5.elim
      | slice sl => exact a5.elim
    · rw [V.put_fld a3]
      refine a8 s' x ?_
      cases r' with
      | field q => exact hs
      | val q => exact a5.elim
      | slice sl => exact a5.elim
  | .obj (.struct hs ha fs), .fld i, .field p, hsel, h, hk =>
    obtain ⟨f, hi, e⟩ := Option.map_eq_some_iff.1 hsel
    obtain ⟨hh, hT⟩ : HeaderOk hs ha (TyFld.sems fs) ∧ ∀ T, .varlen T ∈ fs → TyOk T := by cases hk; exact ⟨by assumption, by assumption⟩
    have hok : StructOk hs ha (TyFld.sems fs) := hh.structOk fun T hm => by
      obtain ⟨T', hm', rfl⟩ := mem_sems_varlen hm
      exact (hT T' hm').lib.lawful
    obtain ⟨vs, rs, shapes, rfl, h1, h2, h3⟩ := Struct.accessIx hok h
    have hmem := List.mem_of_getElem? hi
    have hf : (TyFld.sems fs)[i]? = some f.sem := by rw [TyFld.sems_eq]; simp [hi]
    have hfm : f.sem ∈ TyFld.sems fs := List.mem_of_getElem? hf
    have ek : k' = f.kind.1 := by rw [e]
    have eb : b = f.kind.2 := by rw [e]
    subst ek eb
    obtain ⟨r', v', sh', a1, a2, a3, a4, a5, a6, a7, a8⟩ := component_spec h1 h2 h3 hf (m := m) fun e => by rw [TyFld.kind_mutable]; exact hm e
    rw [TyFld.kind_sees] at a5
    rw [TyFld.kind_extent] at a6 a7
    refine ⟨?_, .inr ⟨v', r', sh', a3, a1, a5, a6, fun hb s' x ht hs => ?_, fun s' x hs => ?_⟩⟩
    · cases f with
      | normal P off => exact (hh.normal _ _ hfm).1
      | length P off => exact (hh.length _ _ hfm).1
      | varlen T => exact hT T hmem
      | array P len => exact hh.array _ _ hfm
    · rw [V.put_fld a3]
      exact a7 (by rw [TyFld.kind_mutable]; exact hb) s' x ht (TyFld.kind_sees.2 hs)
    · rw [V.put_fld a3]
      have := a8 s' x (TyFld.kind_sees.2 hs)
      rw [TyFld.kind_owed, TyFld.kind_owed] at this
      exact this
  | .slice P, .elem i, .slice sl, hsel, h, hk =>
    cases hsel
    have hR : P.ty.Ok w := hk
    obtain ⟨xs, n, rfl, rfl, hn, ha, hal, hx, hxv⟩ := h
    have hlen : xs.length = sl.len := by rw [← hx]; simp
    refine ⟨hR, ?_⟩
    by_cases hi : i < sl.len
    · right
      have hmul : (i + 1) * P.ty.size ≤ sl.len * P.ty.size := Nat.mul_le_mul_right _ (by omega)
      rw [Nat.add_mul, Nat.one_mul] at hmul
      have ha' : Acc s (sl.ptr.add (i * P.ty.size)) P.ty.size := ha.sub (by omega)
      have hal' : Aligned s (sl.ptr.add (i * P.ty.size)) P.ty.align := hal.add (Nat.mod_eq_zero_of_dvd (Nat.dvd_trans hR.dvd (Nat.dvd_mul_left ..)))
      have hxi : xs[i]? = some (takeV (viewAt s (sl.ptr.add (i * P.ty.size))) 0 P.ty.size) := by
        rw [← hx, elemsV_getElem?, if_pos hi, viewAt_add, takeV_shift]
        simp
      refine ⟨.leaf (takeV (viewAt s (sl.ptr.add (i * P.ty.size))) 0 P.ty.size), .val (sl.ptr.add (i * P.ty.size)), .fixed (P.ty.sizeOf w), by simp [V.part, hxi], ?_, ?_, ?_, ?_, ?_⟩
      · simp [access, hi, bind_apply, mkRef_ok ha' hal']
      · exact (FixedLen.shows hR).2 ⟨_, rfl, rfl, ha', hal', rfl, hxv _ (List.mem_of_getElem? hxi)⟩
      · simp only [Kind.bytes, FRef.ptr, hn]
        exact ⟨rfl, ⟨by simp, by simp; omega⟩⟩
      · intro _ s' x ht hs
        obtain ⟨y, rfl, _, _, _, hy, hyv⟩ := (FixedLen.shows hR).1 hs
        rw [V.put_elem hxi]
        simp only [V.put, V.leafOr]
        refine ⟨_, n, rfl, rfl, hn, ht.acc (fun h => h) ha, ht.aligned (fun h => h) hal, ?_, ?_⟩
        · apply List.ext_getElem?
          intro j
          rw [elemsV_getElem?, List.getElem?_set]
          by_cases hj : j < sl.len
          · rw [if_pos hj]
            by_cases e : i = j
            · subst e
              rw [if_pos rfl, if_pos (by omega), ← hy, viewAt_add, takeV_shift]
              simp
            · rw [if_neg e, ← hx, elemsV_getElem?, if_pos hj]
              refine congrArg some (takeV_congr fun t ht' => ?_)
              refine ht.view (fun h => h) _ (.inr ?_)
              simp only [FRef.ptr, Ptr.add_off, Kind.bytes]
              rcases Nat.lt_or_gt_of_ne e with e | e
              · have : (i + 1) * P.ty.size ≤ j * P.ty.size := Nat.mul_le_mul_right _ (by omega)
                rw [Nat.add_mul, Nat.one_mul] at this
                omega
              · have : (j + 1) * P.ty.size ≤ i * P.ty.size := Nat.mul_le_mul_right _ (by omega)
                rw [Nat.add_mul, Nat.one_mul] at this
                omega
          · rw [if_neg hj]
            by_cases e : i = j
            · omega
            · rw [if_neg e]
              exact (List.getElem?_eq_none (by omega)).symm
        · intro z hz
          rcases List.mem_or_eq_of_mem_set hz with hz | rfl
          · exact hxv z hz
          · exact hyv
      · intro s' x hs
        obtain ⟨y, rfl, _⟩ := (FixedLen.shows hR).1 hs
        rw [V.put_elem hxi]
        simp only [V.put, V.leafOr, Kind.owed]
        exact flatMap_set hxi
    · left
      refine ⟨?_, by simp [access, hi], xs, i, rfl, rfl, by omega⟩
      simp only [V.part, Option.map_eq_none_iff]
      exact List.getElem?_eq_none (by omega)
  | .obj _, _, .val _, _, h, _ => exact h.elim
  | .obj _, _, .slice _, _, h, _ => exact h.elim
  | .slice _, _, .val _, _, h, _ => exact h.elim
  | .slice _, _, .field _, _, h, _ => exact h.elim

theorem Kind.Shows.unique {k : Kind w} (hk : k.Ok) {s : St} {r : FRef} {v v' : V} {sh sh' : Layout w} (h : k.Shows s r v sh) (h' : k.Shows s r v' sh') : v = v' ∧ sh = sh' := by
  match k, r, hk, h, h' with
  | .obj T, .field q, hk, h, h' => exact hk.lib.lawful.rep_unique _ _ _ _ _ h.rep h'.rep
  | .val P, .val q, hk, h, h' => exact (FixedLen.lawful hk).rep_unique _ _ _ _ _ h.rep h'.rep
  | .slice P, .slice sl, hk, ⟨xs, n, e1, e2, e3, _, _, e4, _⟩, ⟨xs', n', e1', e2', e3', _, _, e4', _⟩ =>
    subst e1 e2 e1' e2' e4 e4'
    exact ⟨rfl, by rw [BitVec.eq_of_toNat_eq (e3.trans e3'.symm)]⟩

/-- Two components of `Refs`/`Muts` of the same object. -/
theorem component_apart {T : VarLen w} {hs : Nat} {fs : List (Fld w)} {s : St} {p : Ptr} {vs : List V} {l : Layout w} {rs : List FRef} {shapes : List (Layout w)}
    (h1 : aggRefs hs fs p s = .ok rs s) (h2 : aggMuts hs fs p s = .ok ((fs.map Fld.mutable).zip rs) s) (ha : Access T fs s p vs l rs shapes) {m m' : Bool} {i j : Nat} (hij : i ≠ j)
    {f g : Fld w} (hf : fs[i]? = some f) (hg : fs[j]? = some g) (hm : m = true → f.mutable = true) (hm' : m' = true → g.mutable = true) {r r' : FRef}
    (er : component m hs fs i p s = .ok r s) (er' : component m' hs fs j p s = .ok r' s) :
    ∃ v sh v' sh', Sees f s r v sh ∧ Sees g s r' v' sh' ∧ NoOverlap r.ptr (f.extent sh) r'.ptr (g.extent sh') := by
  obtain ⟨r1, v1, sh1, a1, a2, a3, a4, a5, a6, _, _⟩ := component_spec h1 h2 ha hf hm
  obtain ⟨r2, v2, sh2, b1, b2, b3, b4, b5, b6, _, _⟩ := component_spec h1 h2 ha hg hm'
  rw [er] at a1
  rw [er'] at b1
  injection a1 with a1
  injection b1 with b1
  subst a1 b1
  refine ⟨v1, sh1, v2, sh2, a5, b5, ?_⟩
  rcases ha.disj i j f g _ _ _ _ hij hf hg a2 b2 a4 b4 with h | h | h
  · exact .inl h
  · exact .inr (.inl h)
  · exact .inr (.inr (.inr h))

/-- The two accessors are to different fields, or different elements of a slice. -/
def Differ (c c' : Sel) : Prop := (∃ i j, c = .fld i ∧ c' = .fld j ∧ i ≠ j) ∨ ∃ i j, c = .elem i ∧ c' = .elem j ∧ i ≠ j

/-- Two different accessors on the same reference. -/
theorem access_apart {m m' : Bool} {k k1 k2 : Kind w} {c1 c2 : Sel} {b1 b2 : Bool} (hk : k.Ok) (hc : Differ c1 c2)
    (h1 : k.sel c1 = some (k1, b1)) (h2 : k.sel c2 = some (k2, b2)) (hm : m = true → b1 = true) (hm' : m' = true → b2 = true) {s : St} {r : FRef} {v v1 v2 : V} {sh : Layout w}
    (h : k.Shows s r v sh) {r1 r2 : FRef} {sh1 sh2 : Layout w} (hs1 : Step1 m k c1 k1 b1 s r v sh v1 r1 sh1) (hs2 : Step1 m' k c2 k2 b2 s r v sh v2 r2 sh2) :
    NoOverlap r1.ptr (k1.bytes sh1) r2.ptr (k2.bytes sh2) := by
  have hk1 := (access_step hk h1 hm h).1
  have hk2 := (access_step hk h2 hm' h).1
  rcases hc with ⟨i, j, rfl, rfl, hij⟩ | ⟨i, j, rfl, rfl, hij⟩
  · match k, r, h1, h2, h, hk, hs1, hs2 with
    | .obj (.tuple Ts), .field p, h1, h2, h, hk, hs1, hs2 =>
      obtain ⟨T1, hi, e⟩ := Option.map_eq_some_iff.1 h1
      cases e
      obtain ⟨T2, hj, e⟩ := Option.map_eq_some_iff.1 h2
      cases e
      obtain ⟨hne, hT⟩ : Ts ≠ [] ∧ ∀ T ∈ Ts, TyOk T := by cases hk; exact ⟨by assumption, by assumption⟩
      have hl : ∀ T ∈ Ty.sems Ts, Lawful T := by
        intro T hm
        rw [Ty.sems_eq] at hm
        obtain ⟨T', hm', rfl⟩ := List.mem_map.1 hm
        exact (hT T' hm').lib.lawful
      obtain ⟨vs, rs, shapes, rfl, e1, e2, e3⟩ := Tuple.accessIx (by rw [Ty.sems_eq]; simpa using hne) hl h
      have hf : ((Ty.sems Ts).map Fld.varlen)[i]? = some (.varlen T1.sem) := by rw [Ty.sems_eq]; simp [hi]
      have hg : ((Ty.sems Ts).map Fld.varlen)[j]? = some (.varlen T2.sem) := by rw [Ty.sems_eq]; simp [hj]
      obtain ⟨w1, l1, w2, l2, s1, s2, hn⟩ := component_apart e1 e2 e3 hij hf hg (fun _ => rfl) (fun _ => rfl) hs1.run hs2.run
      rw [← TyFld.sem, TyFld.kind_sees] at s1 s2
      rw [(hs1.shows.unique hk1 s1).2, (hs2.shows.unique hk2 s2).2]
      exact hn
    | .obj (.struct hs ha fs), .field p, h1, h2, h, hk, hs1, hs2 =>
      obtain ⟨f, hi, e⟩ := Option.map_eq_some_iff.1 h1
      obtain ⟨g, hj, e'⟩ := Option.map_eq_some_iff.1 h2
      obtain ⟨hh, hT⟩ : HeaderOk hs ha (TyFld.sems fs) ∧ ∀ T, .varlen T ∈ fs → TyOk T := by cases hk; exact ⟨by assumption, by assumption⟩
      have hok : StructOk hs ha (TyFld.sems fs) := hh.structOk fun T hm => by
        obtain ⟨T', hm', rfl⟩ := mem_sems_varlen hm
        exact (hT T' hm').lib.lawful
      obtain ⟨vs, rs, shapes, rfl, e1, e2, e3⟩ := Struct.accessIx hok h
      have hf : (TyFld.sems fs)[i]? = some f.sem := by rw [TyFld.sems_eq]; simp [hi]
      have hg : (TyFld.sems fs)[j]? = some g.sem := by rw [TyFld.sems_eq]; simp [hj]
      have ek : k1 = f.kind.1 := by rw [e]
      have eb : b1 = f.kind.2 := by rw [e]
      have ek' : k2 = g.kind.1 := by rw [e']
      have eb' : b2 = g.kind.2 := by rw [e']
      subst ek eb ek' eb'
      obtain ⟨w1, l1, w2, l2, s1, s2, hn⟩ := component_apart e1 e2 e3 hij hf hg (fun e => by rw [TyFld.kind_mutable]; exact hm e) (fun e => by rw [TyFld.kind_mutable]; exact hm' e) hs1.run hs2.run
      rw [TyFld.kind_sees] at s1 s2
      rw [TyFld.kind_extent, TyFld.kind_extent] at hn
      rw [(hs1.shows.unique hk1 s1).2, (hs2.shows.unique hk2 s2).2]
      exact hn
  · match k, r, h1, h2, h, hk, hs1, hs2 with
    | .obj T, .field p, h1, _, _, _, _, _ => cases T <;> cases h1
    | .slice P, .slice sl, h1, h2, h, hk, hs1, hs2 =>
      cases h1
      cases h2
      have key : ∀ {m : Bool} {i : Nat} {r : FRef}, access m (Kind.slice P : Kind w) (.elem i) (.slice sl) s = (.ok r s : Res St FRef) → r = .val (sl.ptr.add (i * P.ty.size)) := by
        intro m i r e
        simp only [access] at e
        split at e
        · obtain ⟨_, s0, _, e⟩ := bind_ok_inv e
          cases e
          rfl
        · cases e
      rw [key hs1.run, key hs2.run]
      refine .inr (.inr (.inr ?_))
      simp only [FRef.ptr, Ptr.add_off, Kind.bytes]
      rcases Nat.lt_or_gt_of_ne hij with e | e
      · left
        have : (i + 1) * P.ty.size ≤ j * P.ty.size := Nat.mul_le_mul_right _ (by omega)
        rw [Nat.add_mul, Nat.one_mul] at this
        omega
      · right
        have : (j + 1) * P.ty.size ≤ i * P.ty.size := Nat.mul_le_mul_right _ (by omega)
        rw [Nat.add_mul, Nat.one_mul] at this
        omega

/-- What a chain of accessor calls gives. -/
structure Steps (m : Bool) (k : Kind w) (π : List Sel) (k' : Kind w) (s : St) (r : FRef) (v : V) (sh : Layout w) (v' : V) (r' : FRef) (sh' : Layout w) : Prop where
  run : follow m k π r s = .ok r' s
  shows : k'.Shows s r' v' sh'
  inside : Within r'.ptr (k'.bytes sh') r.ptr (k.bytes sh)
  write : m = true → ∀ s' x, Touch s s' r'.ptr (k'.bytes sh') (fun _ => False) → k'.Shows s' r' x sh' → k.Shows s' r (v.put π x) sh
  owed : m = true → ∀ s' x, Touch s s' r'.ptr (k'.bytes sh') (fun _ => False) → k'.Shows s' r' x sh' → (k'.owed v' ++ k.owed (v.put π x)).Perm (k.owed v ++ k'.owed x)

theorem at_cons {m : Bool} {k k' : Kind w} {c : Sel} {π : List Sel} (h : k.at m (c :: π) = some k') : ∃ k1 b, k.sel c = some (k1, b) ∧ (m = true → b = true) ∧ k1.at m π = some k' := by
  rw [Kind.at] at h
  split at h
  · rename_i k1 b e
    split at h
    · cases h
    · rename_i hb
      refine ⟨k1, b, e, ?_, h⟩
      cases m <;> cases b <;> simp at hb ⊢
  · cases h

theorem sel_ok {k k' : Kind w} {c : Sel} {b : Bool} (hk : k.Ok) (hsel : k.sel c = some (k', b)) : k'.Ok := by
  match k, c, hsel, hk with
  | .obj (.fixedLen P), .val, hsel, hk => cases hsel; cases hk; assumption
  | .obj (.array P L), .slice, hsel, hk => cases hsel; cases hk; assumption
  | .obj (.str L), .slice, hsel, hk => cases hsel; cases hk with | str hw _ => exact u8Ty_ok hw
  | .obj (.newtype T), .inner, hsel, hk => cases hsel; cases hk; assumption
  | .obj (.tuple Ts), .fld i, hsel, hk =>
    obtain ⟨T, hi, e⟩ := Option.map_eq_some_iff.1 hsel
    cases e
    cases hk with
    | tuple _ hT => exact hT T (List.mem_of_getElem? hi)
  | .obj (.struct hs ha fs), .fld i, hsel, hk =>
    obtain ⟨f, hi, e⟩ := Option.map_eq_some_iff.1 hsel
    have hmem := List.mem_of_getElem? hi
    have hfm : f.sem ∈ TyFld.sems fs := by rw [TyFld.sems_eq]; exact List.mem_map.2 ⟨f, hmem, rfl⟩
    cases hk with
    | struct hh hT => 
      cases f with
      | normal P off => cases e; exact (hh.normal _ _ hfm).1
      | length P off => cases e; exact (hh.length _ _ hfm).1
      | varlen T => cases e; exact hT T hmem
      | array P len => cases e; exact hh.array _ _ hfm
  | .slice P, .elem i, hsel, hk => cases hsel; exact hk

theorem at_ok {m : Bool} : ∀ (π : List Sel) {k k' : Kind w}, k.Ok → k.at m π = some k' → k'.Ok
  | [], k, k', hk, h => by cases h; exact hk
  | c :: π, k, k', hk, h => by
    obtain ⟨k1, b, hsel, _, h⟩ := at_cons h
    exact at_ok π (sel_ok hk hsel) h

theorem follow_spec {m : Bool} : ∀ (π : List Sel) {k k' : Kind w}, k.Ok → k.at m π = some k' → ∀ {s : St} {r : FRef} {v : V} {sh : Layout w}, k.Shows s r v sh →
    k'.Ok ∧ ((v.OutOfBounds π ∧ follow m k π r s = .panic .outOfBounds s) ∨ ∃ v' r' sh', v.sub π = some v' ∧ Steps m k π k' s r v sh v' r' sh')
  | [], k, k', hk, hat, s, r, v, sh, h => by
    cases hat
    exact ⟨hk, .inr ⟨v, r, sh, rfl, rfl, h, Within.refl _ _, fun _ s' x _ hs => hs, fun _ s' x _ _ => List.Perm.refl _⟩⟩
  | c :: π, k, k', hk, hat, s, r, v, sh, h => by
    obtain ⟨k1, b, hsel, hb, hat1⟩ := at_cons hat
    clear hat
    obtain ⟨hk1, hc⟩ := access_step hk hsel hb h
    rcases hc with ⟨hn, e, xs, i, rfl, rfl, hi⟩ | ⟨v1, r1, sh1, hv1, h1⟩
    · exact ⟨at_ok π hk1 hat1, .inl ⟨⟨[], i, π, xs, rfl, rfl, hi⟩, by rw [follow, hsel]; simp only [bind_apply, e, Res.bind_panic]⟩⟩
    · obtain ⟨hk', hd⟩ := follow_spec π hk1 hat1 h1.shows
      have hsub : v.sub (c :: π) = v1.sub π := by rw [V.sub, hv1]; rfl
      have hrun : follow m k (c :: π) r s = follow m k1 π r1 s := by rw [follow, hsel]; simp only [bind_apply, h1.run, Res.bind_ok]
      refine ⟨hk', ?_⟩
      rcases hd with ⟨d1, d2⟩ | ⟨v', r', sh', d1, d2⟩
      · obtain ⟨π1, i, π2, xs, rfl, g2, g3⟩ := d1
        exact .inl ⟨⟨c :: π1, i, π2, xs, rfl, by rw [V.sub, hv1]; exact g2, g3⟩, hrun.trans d2⟩
      · refine .inr ⟨v', r', sh', hsub.trans d1, hrun.trans d2.run, d2.shows, d2.inside.trans h1.inside, fun hm s' x ht hs => ?_, fun hm s' x ht hs => ?_⟩
        · rw [V.put_cons hv1]
          exact h1.write (hb hm) s' _ (d2.inside.touch ht) (d2.write hm s' x ht hs)
        · rw [V.put_cons hv1]
          have p1 := h1.owed s' _ (d2.write hm s' x ht hs)
          have p2 := d2.owed hm s' x ht hs
          -- count both sides
          refine List.perm_iff_count.2 fun e => ?_
          have c1 := List.perm_iff_count.1 p1 e
          have c2 := List.perm_iff_count.1 p2 e
          simp only [List.count_append] at c1 c2 ⊢
          omega

theorem component_inv {m : Bool} {hs : Nat} {fs : List (Fld w)} {i : Nat} {p : Ptr} {s s' : St} {r : FRef} (h : component m hs fs i p s = .ok r s') :
    ∃ rs, aggRefs hs fs p s = .ok rs s' ∧ rs[i]? = some r := by
  unfold component at h
  split at h
  · obtain ⟨rs, s0, h0, h⟩ := bind_ok_inv h
    obtain ⟨rs0, s1, h1, h0⟩ := bind_ok_inv h0
    cases h0
    cases e : ((fs.map Fld.mutable).zip rs0)[i]? with
    | none => rw [e] at h; cases h
    | some x =>
      obtain ⟨b, r'⟩ := x
      rw [e] at h
      cases b <;> cases h
      exact ⟨rs0, h1, (List.getElem?_zip_eq_some.1 e).2⟩
  · obtain ⟨rs, s0, h0, h⟩ := bind_ok_inv h
    cases e : rs[i]? with
    | none => rw [e] at h; cases h
    | some r' => rw [e] at h; cases h; exact ⟨rs, h0, e⟩

theorem access_same {m m' : Bool} {k : Kind w} {c : Sel} {r r1 r2 : FRef} {s : St} (h1 : access m k c r s = .ok r1 s) (h2 : access m' k c r s = .ok r2 s) : r1 = r2 := by
  have key : ∀ {hs : Nat} {fs : List (Fld w)} {i : Nat} {p : Ptr}, component m hs fs i p s = .ok r1 s → component m' hs fs i p s = .ok r2 s → r1 = r2 := by
    intro hs fs i p h1 h2
    obtain ⟨rs, e1, e2⟩ := component_inv h1
    obtain ⟨rs', e1', e2'⟩ := component_inv h2
    rw [e1] at e1'
    injection e1' with e1'
    subst e1'
    rw [e2] at e2'
    injection e2'
  have det : ∀ {x : M FRef}, x s = .ok r1 s → x s = .ok r2 s → r1 = r2 := by
    intro x h1 h2
    rw [h1] at h2
    injection h2
  match k, c, r, h1, h2 with
  | .obj (.fixedLen P), .val, .field p, h1, h2 => exact det h1 h2
  | .obj (.array P L), .slice, .field p, h1, h2 => exact det h1 h2
  | .obj (.str L), .slice, .field p, h1, h2 => exact det h1 h2
  | .obj (.newtype T), .inner, .field p, h1, h2 => exact det h1 h2
  | .obj (.tuple Ts), .fld i, .field p, h1, h2 => exact key h1 h2
  | .obj (.struct hs ha fs), .fld i, .field p, h1, h2 => exact key h1 h2
  | .slice P, .elem i, .slice sl, h1, h2 => exact det h1 h2

theorem NoOverlap.within {p p' q q' : Ptr} {a a' b b' : Nat} (h : NoOverlap p a q b) (hp : Within p' a' p a) (hq : Within q' b' q b) : NoOverlap p' a' q' b' := by
  obtain ⟨h1, h2⟩ := hp
  obtain ⟨h3, h4⟩ := hq
  unfold NoOverlap at *
  rw [h1, h3]
  omega

theorem Diverge.cases_cons {c c' : Sel} {π π' : List Sel} (h : Diverge (c :: π) (c' :: π')) : Differ c c' ∨ c = c' ∧ Diverge π π' := by
  cases h with
  | fld h => exact .inl (.inl ⟨_, _, rfl, rfl, h⟩)
  | elem h => exact .inl (.inr ⟨_, _, rfl, rfl, h⟩)
  | cons h => exact .inr ⟨rfl, h⟩

/-- Chains that part lead to different memory. -/
theorem follow_apart {m m' : Bool} : ∀ {π π' : List Sel}, Diverge π π' → ∀ {k k1 k2 : Kind w}, k.Ok → k.at m π = some k1 → k.at m' π' = some k2 →
    ∀ {s : St} {r r1 r2 : FRef} {v v1 v2 : V} {sh sh1 sh2 : Layout w}, k.Shows s r v sh → Steps m k π k1 s r v sh v1 r1 sh1 → Steps m' k π' k2 s r v sh v2 r2 sh2 →
    NoOverlap r1.ptr (k1.bytes sh1) r2.ptr (k2.bytes sh2)
  | [], _, hd, _, _, _, _, _, _, _, _, _, _, _, _, _, _, _, _, _, _, _ => by cases hd
  | _ :: _, [], hd, _, _, _, _, _, _, _, _, _, _, _, _, _, _, _, _, _, _, _ => by cases hd
  | c :: π, c' :: π', hd, k, k1, k2, hk, h1, h2, s, r, r1, r2, v, v1, v2, sh, sh1, sh2, h, hs1, hs2 => by
    obtain ⟨k3, b3, e3, hb3, h1⟩ := at_cons h1
    obtain ⟨k4, b4, e4, hb4, h2⟩ := at_cons h2
    obtain ⟨hk3, ⟨_, x, _⟩ | ⟨v3, r3, sh3, p3, s3⟩⟩ := access_step hk e3 hb3 h
    · have := hs1.run; rw [follow, e3] at this; simp only [bind_apply, x, Res.bind_panic] at this; cases this
    obtain ⟨hk4, ⟨_, x, _⟩ | ⟨v4, r4, sh4, p4, s4⟩⟩ := access_step hk e4 hb4 h
    · have := hs2.run; rw [follow, e4] at this; simp only [bind_apply, x, Res.bind_panic] at this; cases this
    have run1 : follow m k3 π r3 s = .ok r1 s := by have := hs1.run; rw [follow, e3] at this; simpa only [bind_apply, s3.run, Res.bind_ok] using this
    have run2 : follow m' k4 π' r4 s = .ok r2 s := by have := hs2.run; rw [follow, e4] at this; simpa only [bind_apply, s4.run, Res.bind_ok] using this
    obtain ⟨hk1, ⟨_, x⟩ | ⟨v1', r1', sh1', _, t1⟩⟩ := follow_spec π hk3 h1 s3.shows
    · rw [run1] at x; cases x
    obtain ⟨hk2, ⟨_, x⟩ | ⟨v2', r2', sh2', _, t2⟩⟩ := follow_spec π' hk4 h2 s4.shows
    · rw [run2] at x; cases x
    have er1 : r1 = r1' := by have := t1.run; rw [run1] at this; injection this
    have er2 : r2 = r2' := by have := t2.run; rw [run2] at this; injection this
    subst er1 er2
    have es1 := (hs1.shows.unique hk1 t1.shows).2
    have es2 := (hs2.shows.unique hk2 t2.shows).2
    subst es1 es2
    rcases hd.cases_cons with hne | ⟨rfl, hd'⟩
    · exact (access_apart hk hne e3 e4 hb3 hb4 h s3 s4).within t1.inside t2.inside
    · rw [e3] at e4
      cases e4
      have er : r3 = r4 := access_same s3.run s4.run
      subst er
      have := (s3.shows.unique hk3 s4.shows)
      obtain ⟨rfl, rfl⟩ := this
      exact follow_apart hd' hk3 h1 h2 s3.shows t1 t2

theorem V.sub_append : ∀ (π1 : List Sel) {v v1 : V} {π2 : List Sel}, v.sub π1 = some v1 → v.sub (π1 ++ π2) = v1.sub π2
  | [], v, v1, π2, h => by cases h; rfl
  | c :: π1, v, v1, π2, h => by
    rw [V.sub] at h
    rw [List.cons_append, V.sub]
    cases e : v.part c with
    | none => rw [e] at h; cases h
    | some v2 => rw [e] at h; exact V.sub_append π1 (v := v2) h

theorem V.OutOfBounds.none {v : V} {π : List Sel} (h : v.OutOfBounds π) : v.sub π = none := by
  obtain ⟨π1, i, π2, xs, rfl, h1, h2⟩ := h
  rw [V.sub_append π1 h1]
  simp [V.sub, V.part, List.getElem?_eq_none h2]

/-- The chain succeeds if the part is there. -/
theorem follow_some {m : Bool} {π : List Sel} {k k' : Kind w} (hk : k.Ok) (hat : k.at m π = some k') {s : St} {r : FRef} {v v' : V} {sh : Layout w} (h : k.Shows s r v sh)
    (hv : v.sub π = some v') : k'.Ok ∧ ∃ r' sh', Steps m k π k' s r v sh v' r' sh' := by
  obtain ⟨hk', ⟨h1, _⟩ | ⟨v1, r', sh', h1, h2⟩⟩ := follow_spec π hk hat h
  · rw [h1.none] at hv; cases hv
  · rw [h1] at hv; cases hv; exact ⟨hk', r', sh', h2⟩

theorem V.sub_leaf : ∀ (π : List Sel) {a : Img} {v : V}, (V.leaf a).sub π = some v → v = .leaf a ∧ ∀ x, (V.leaf a).put π x = x
  | [], a, v, h => by cases h; exact ⟨rfl, fun _ => rfl⟩
  | .val :: π, a, v, h => by
    obtain ⟨h1, h2⟩ := V.sub_leaf π (a := a) (v := v) h
    exact ⟨h1, fun x => (show (V.leaf a).put (.val :: π) x = (V.leaf a).put π x from rfl).trans (h2 x)⟩
  | .slice :: π, a, v, h => by
    obtain ⟨h1, h2⟩ := V.sub_leaf π (a := a) (v := v) h
    exact ⟨h1, fun x => (show (V.leaf a).put (.slice :: π) x = (V.leaf a).put π x from rfl).trans (h2 x)⟩
  | .inner :: π, a, v, h => by
    obtain ⟨h1, h2⟩ := V.sub_leaf π (a := a) (v := v) h
    exact ⟨h1, fun x => (show (V.leaf a).put (.inner :: π) x = (V.leaf a).put π x from rfl).trans (h2 x)⟩
  | .fld i :: π, a, v, h => by cases h
  | .elem i :: π, a, v, h => by cases h

/-- Reading back what was put. -/
theorem V.sub_put : ∀ (π : List Sel) {v v' x : V}, v.sub π = some v' → (∀ a, v' = .leaf a → ∃ b, x = .leaf b) → (v.put π x).sub π = some x
  | [], v, v', x, _, _ => by cases v <;> rfl
  | .val :: π, v, v', x, h, hx => by
    have := V.sub_put π (v := v) (v' := v') h hx
    cases v <;> exact this
  | .slice :: π, v, v', x, h, hx => by
    have := V.sub_put π (v := v) (v' := v') h hx
    cases v <;> exact this
  | .inner :: π, v, v', x, h, hx => by
    have := V.sub_put π (v := v) (v' := v') h hx
    cases v <;> exact this
  | .fld i :: π, v, v', x, h, hx => by
    rw [V.sub] at h
    cases v with
    | leaf a => cases h
    | arr xs => cases h
    | node vs =>
      simp only [V.part] at h
      cases e : vs[i]? with
      | none => rw [e] at h; cases h
      | some u =>
        rw [e] at h
        have := V.sub_put π (v := u) (v' := v') h hx
        rw [V.put_fld e, V.sub]
        simp only [V.part]
        rw [List.getElem?_set_self (List.getElem?_eq_some_iff.1 e).1]
        exact this
  | .elem i :: π, v, v', x, h, hx => by
    rw [V.sub] at h
    cases v with
    | leaf a => cases h
    | node vs => cases h
    | arr xs =>
      simp only [V.part] at h
      cases e : xs[i]? with
      | none => rw [e] at h; cases h
      | some a =>
        rw [e] at h
        obtain ⟨e1, e2⟩ := V.sub_leaf π (a := a) (v := v') h
        obtain ⟨b, rfl⟩ := hx a e1
        have := V.sub_put π (v := .leaf a) (v' := v') (x := .leaf b) h hx
        rw [e2] at this
        rw [V.put_elem e, V.sub, e2]
        simp only [V.part]
        rw [List.getElem?_set_self (List.getElem?_eq_some_iff.1 e).1]
        exact this

theorem Diverge.sub_leaf {π π' : List Sel} (h : Diverge π π') (a : Img) : (V.leaf a).sub π' = none := by
  induction h with
  | fld _ => rfl
  | elem _ => rfl
  | @cons c π π' _ ih => cases c <;> first | exact ih | rfl

/-- Other parts are not affected. -/
theorem Diverge.sub_put {π π' : List Sel} (h : Diverge π π') : ∀ (v x : V), (v.put π x).sub π' = v.sub π' := by
  induction h with
  | @fld i j π π' hij =>
    intro v x
    cases v with
    | leaf a => rfl
    | arr xs => rfl
    | node vs => simp [V.put, V.sub, V.part, hij]
  | @elem i j π π' hij =>
    intro v x
    cases v with
    | leaf a => rfl
    | node xs => rfl
    | arr vs => simp [V.put, V.sub, V.part, hij]
  | @cons c π π' hd ih =>
    intro v x
    cases c with
    | val => have := ih v x; cases v <;> exact this
    | slice => have := ih v x; cases v <;> exact this
    | inner => have := ih v x; cases v <;> exact this
    | fld i =>
      cases v with
      | leaf a => rfl
      | arr xs => rfl
      | node vs =>
        simp only [V.put, V.sub, V.part, List.getElem?_modify, if_true]
        cases vs[i]? with
        | none => rfl
        | some u => exact ih u x
    | elem i =>
      cases v with
      | leaf a => rfl
      | node vs => rfl
      | arr xs =>
        simp only [V.put, V.sub, V.part, List.getElem?_modify, if_true]
        cases xs[i]? with
        | none => rfl
        | some a =>
          show (V.leaf _).sub π' = (V.leaf a).sub π'
          rw [hd.sub_leaf, hd.sub_leaf]

/-- What a reference shows does not depend on other memory. -/
theorem Kind.Shows.of_touch {k : Kind w} (hk : k.Ok) {s s' : St} {r : FRef} {v : V} {sh : Layout w} {q : Ptr} {n : Nat} (h : k.Shows s r v sh) (ht : Touch s s' q n (fun _ => False))
    (hd : NoOverlap q n r.ptr (k.bytes sh)) : k.Shows s' r v sh := by
  have key : ∀ {p : Ptr} {N : Nat}, NoOverlap q n p N → ∀ i, i < N → viewAt s' p i = viewAt s p i := by
    intro p N hd i hi
    refine ht.view (fun h => h) i ?_
    unfold NoOverlap at hd
    by_cases hb : p.blk = q.blk
    · have : ¬ q.blk ≠ p.blk := fun h => h hb.symm
      omega
    · exact .inl hb
  have obj : ∀ {T : VarLen w}, Lawful T → ∀ {p : Ptr}, Valid T s p v sh → NoOverlap q n p sh.size.toNat → Valid T s' p v sh := by
    intro T hT p hv hd
    exact ⟨ht.acc (fun h => h) hv.acc, ht.aligned (fun h => h) hv.aligned, hT.rep_ext _ _ _ _ hv.rep fun i hi => (key hd i hi).symm⟩
  match k, r, hk, h, hd with
  | .obj T, .field p, hk, h, hd => exact obj hk.lib.lawful h hd
  | .val P, .val p, hk, h, hd =>
    refine obj (FixedLen.lawful hk) h ?_
    obtain ⟨x, rfl, rfl, _⟩ := (FixedLen.shows hk).1 h
    simpa only [Layout.size, RTy.Ok.sizeOf_toNat hk, FRef.ptr, Kind.bytes] using hd
  | .slice P, .slice sl, hk, ⟨xs, m, e1, e2, e3, e4, e5, e6, e7⟩, hd =>
    subst e1 e2
    simp only [Kind.bytes, e3] at hd
    refine ⟨xs, m, rfl, rfl, e3, ht.acc (fun h => h) e4, ht.aligned (fun h => h) e5, ?_, e7⟩
    rw [← e6]
    apply List.ext_getElem?
    intro j
    rw [elemsV_getElem?, elemsV_getElem?]
    by_cases hj : j < sl.len
    · rw [if_pos hj, if_pos hj]
      refine congrArg some (takeV_congr fun t ht' => key hd _ ?_)
      have : (j + 1) * P.ty.size ≤ sl.len * P.ty.size := Nat.mul_le_mul_right _ (by omega)
      rw [Nat.add_mul, Nat.one_mul] at this
      omega
    · rw [if_neg hj, if_neg hj]

/-- Assigning through a reference. -/
theorem assignRef_spec {P : Plain} (hP : P.ty.Ok w) {s : St} {r : FRef} {v : V} {sh : Layout w} (h : (Kind.val P : Kind w).Shows s r v sh) {x : Img} (hx : P.ty.valid x = true) :
    ∃ old s', v = .leaf old ∧ assignRef P.ty r x s = .ok () s' ∧ Touch s s' r.ptr P.ty.size (fun _ => False) ∧ (Kind.val P : Kind w).Shows s' r (.leaf x) sh ∧
      s'.log = s.log ++ P.ty.drops old := by
  match r, h with
  | .val q, h =>
    obtain ⟨old, rfl, rfl, ha, hal, h1, h2⟩ := (FixedLen.shows hP).1 h
    obtain ⟨s1, e1, t1, l1, c1⟩ := dropInPlace_ok (R := P.ty) ha hal (by rw [h1]; exact h2)
    have hlx : x.length = P.ty.size := hP.valid_len _ hx
    have ha1 : Acc s1 q P.ty.size := t1.acc (fun h => h) ha
    have hal1 := t1.aligned (fun h => h) hal
    have t2 : Touch s1 (s1.write q x) q P.ty.size noOwn := by rw [← hlx]; exact Touch.write
    refine ⟨old, s1.write q x, rfl, ?_, t1.trans t2, ?_, ?_⟩
    · rw [assignRef, bind_apply, e1, Res.bind_ok, writeVal_ok (by rw [hlx]; exact ha1) hal1]
    · refine (FixedLen.shows hP).2 ⟨x, rfl, rfl, t2.acc (fun h => h) ha1, t2.aligned (fun h => h) hal1, ?_, hx⟩
      rw [← hlx]
      exact takeV_viewAt_write (by rw [hlx]; exact ha1)
    · rw [← h1, ← l1]
      simp

end Varlen
