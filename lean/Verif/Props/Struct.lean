import Verif.Props.Layout
import Verif.Props.Boxes
import Verif.Proofs.StructProps
import Verif.Proofs.Drops
/-! # C35–C39: fields of structs and tuples, destruction, layout controllers, newtypes -/
namespace Varlen
variable {w : Nat}

/-! ## C35 -/

theorem holds_of_sees {hs ha : Nat} {lens : List Img} {s : St} {fi : FI w} {r : FRef} {v : V} {sh : Layout w} (hok : fi.fld.Ok hs ha) (h : Sees fi.fld s r v sh)
    (hlen : ∀ R len I sl, fi = .array R len I → r = .slice sl → sl.len = (len lens).toNat)
    (h1 : ∀ R off img, fi = .normal R off img → v = .leaf img) (h2 : ∀ R off img, fi = .length R off img → v = .leaf img)
    (h3 : ∀ T I, fi = .varlen T I → I.val = some v) (h4 : ∀ R len I, fi = .array R len I → ∃ xs, v = .arr xs ∧ I.vals (len lens).toNat = some xs) : Holds lens s fi r := by
  have leaf : ∀ (R : RTy) (q : Ptr) img, R.Ok w → v = .leaf img → Valid (FixedLen w R) s q v sh → readVal R q s = .ok img s := by
    rintro R q img hR rfl ⟨ha, hal, img', e1, rfl, e2, e3⟩
    cases e1
    simp only [Layout.size, hR.sizeOf_toNat] at ha
    simp only [FixedLen, hR.alignOf_toNat] at hal
    rw [← e2] at e3 ⊢
    exact readVal_ok ha hal e3
  cases fi with
  | normal R off img =>
    cases r with
    | val q => exact leaf R q img hok.1 (h1 _ _ _ rfl) h
    | field q => exact h.elim
    | slice sl => exact h.elim
  | length R off img =>
    cases r with
    | val q => exact leaf R q img hok.1 (h2 _ _ _ rfl) h
    | field q => exact h.elim
    | slice sl => exact h.elim
  | varlen T I =>
    cases r with
    | field q => exact ⟨v, sh, h3 _ _ rfl, h⟩
    | val q => exact h.elim
    | slice sl => exact h.elim
  | array R len I =>
    cases r with
    | val q => exact h.elim
    | field q => exact h.elim
    | slice sl =>
      obtain ⟨xs, n, rfl, rfl, hn, ha, hal, he, hx⟩ := h
      obtain ⟨xs', e1, e2⟩ := h4 _ _ _ rfl
      cases e1
      have hl := hlen _ _ _ _ rfl rfl
      refine ⟨xs, hl, by rw [hl]; exact e2, ?_⟩
      rw [← he] at hx ⊢
      exact readElems_spec hok _ _ _ ha hal hx

theorem lengthsOf_valFields {lens : List Img} {o : View} : ∀ (fis : List (FI w)) vs, valFields lens fis = some vs → RepHdr (fis.map FI.fld) vs o →
    lengthsOf (fis.map FI.fld) o = fis.filterMap fun f => match f with | .length _ _ img => some img | _ => none := by
  intro fis
  induction fis with
  | nil => intro vs _ _; rfl
  | cons f fis ih =>
    intro vs h hr
    unfold lengthsOf at ih ⊢
    cases f with
    | normal R off img =>
      simp only [valFields, Option.map_eq_some_iff] at h
      obtain ⟨vs0, h1, rfl⟩ := h
      simpa [FI.fld] using ih vs0 h1 hr.2
    | length R off img =>
      simp only [valFields, Option.map_eq_some_iff] at h
      obtain ⟨vs0, h1, rfl⟩ := h
      have h2 := hr.1.1
      simp only [List.map_cons, FI.fld, List.filterMap_cons, h2, List.cons.injEq, true_and]
      exact ih vs0 h1 hr.2
    | varlen T I =>
      simp only [valFields, Option.bind_eq_some_iff, Option.map_eq_some_iff] at h
      obtain ⟨v0, h0, vs0, h1, rfl⟩ := h
      simpa [FI.fld] using ih vs0 h1 hr
    | array R len I =>
      simp only [valFields, Option.bind_eq_some_iff, Option.map_eq_some_iff] at h
      obtain ⟨v0, h0, vs0, h1, rfl⟩ := h
      simpa [FI.fld] using ih vs0 h1 hr

/-- A struct constructed from field initializers, accessed with `refs()`: there is one reference per field, and each shows exactly what its initializer described. The lengths
of array slices are those computed from the `#[controls_layout]` literals. -/
theorem C35_struct_refs {headSize headAlign : Nat} {fis : List (FI w)} (hlit : StructLit headSize headAlign fis) {s s' : St} {p : Ptr} {l : Layout w}
    (hsu : Suitable (Struct w headSize headAlign (fis.map FI.fld)) (Struct.init headSize headAlign fis) s p l)
    (e : (Struct.init headSize headAlign fis).initTo p l s = .ok () s') :
    ∃ rs, aggRefs headSize (fis.map FI.fld) p s' = .ok rs s' ∧ rs.length = fis.length ∧
      ∀ (i : Nat) fi r, fis[i]? = some fi → rs[i]? = some r →
        Holds (fis.filterMap fun f => match f with | .length _ _ img => some img | _ => none) s' fi r := by
  have hlib := hlit.lib.lib
  have hok : StructOk headSize headAlign (fis.map FI.fld) := hlit.header.structOk fun T hT => by
    obtain ⟨fi, hfi, he⟩ := List.mem_map.1 hT
    cases fi <;> simp only [FI.fld, reduceCtorEq, Fld.varlen.injEq] at he
    subst he
    exact (hlit.varlen _ _ hfi).lib.1.lawful
  rcases hsu.run hlib.2 with ⟨v, s2, ev, e2, _, _, hval, _⟩ | ⟨m, s2, ev, e2, _⟩
  · rw [e] at e2
    cases e2
    simp only [Struct.init, aggInitializer, Option.map_eq_some_iff] at ev
    obtain ⟨vs, hvs, rfl⟩ := ev
    obtain ⟨vs', rs, shapes, e1, href, _, hacc⟩ := Struct.accessIx hok hval
    cases e1
    obtain ⟨hlen, hget⟩ := valFields_get _ _ hvs
    refine ⟨rs, href, by simpa using hacc.rlen, fun i fi r h1 h2 => ?_⟩
    have hi : i < fis.length := (List.getElem?_eq_some_iff.1 h1).1
    have hv : vs[i]? = some vs[i] := List.getElem?_eq_getElem (by omega)
    have hs : shapes[i]? = some (shapes[i]'(by rw [hacc.slen]; simpa using hi)) := List.getElem?_eq_getElem _
    have hf : (fis.map FI.fld)[i]? = some fi.fld := by simp [h1]
    obtain ⟨g1, g2, g3, g4⟩ := hget i fi _ h1 hv
    refine holds_of_sees (hok.flds _ (List.mem_of_getElem? hf)) (hacc.sees i _ r _ _ hf h2 hv hs) ?_ g1 g2 g3 g4
    rintro R len I sl rfl rfl
    obtain ⟨sl', h3, h4⟩ := Struct.slice_len hok hval href (i := i) (R := R) (len := len) (by simpa [FI.fld] using hf)
    rw [h2] at h3
    cases h3
    rw [h4]
    congr 2
    obtain ⟨_, _, vs2, ls2, size2, e3, _, r1, _⟩ := hval
    cases e3
    exact lengthsOf_valFields _ _ hvs r1
  · rw [e] at e2; cases e2

/-- The same for tuples. -/
theorem C35_tuple_refs {fis : List (VarLen w × Init w)} (hne : fis ≠ []) (hl : ∀ f ∈ fis, LibInit f.1 f.2) {s s' : St} {p : Ptr} {l : Layout w}
    (hsu : Suitable (Tuple w (fis.map (·.1))) (Tuple.init fis) s p l) (e : (Tuple.init fis).initTo p l s = .ok () s') :
    ∃ rs, aggRefs 0 (fis.map fun f => .varlen f.1) p s' = .ok rs s' ∧ rs.length = fis.length ∧
      ∀ (i : Nat) f r, fis[i]? = some f → rs[i]? = some r → ∃ q v l', r = .field q ∧ f.2.val = some v ∧ Valid f.1 s' q v l' := by
  have hlib := (LibInit.tuple hne hl).lib
  have hT : ∀ T ∈ fis.map (·.1), Lawful T := by
    intro T hT
    obtain ⟨f, hf, rfl⟩ := List.mem_map.1 hT
    exact (hl f hf).lib.1.lawful
  rcases hsu.run hlib.2 with ⟨v, s2, ev, e2, _, _, hval, _⟩ | ⟨m, s2, ev, e2, _⟩
  · rw [e] at e2
    cases e2
    simp only [Tuple.init, aggInitializer, Option.map_eq_some_iff] at ev
    obtain ⟨vs, hvs, rfl⟩ := ev
    obtain ⟨vs', rs, shapes, e1, href, _, hacc⟩ := Tuple.accessIx (by simpa using hne) hT hval
    cases e1
    obtain ⟨hlen, hget⟩ := valFields_get _ _ hvs
    rw [List.map_map] at href hacc
    refine ⟨rs, href, by simpa using hacc.rlen, fun i f r h1 h2 => ?_⟩
    have hi : i < fis.length := (List.getElem?_eq_some_iff.1 h1).1
    have hv : vs[i]? = some (vs[i]'(by simp at hlen; omega)) := List.getElem?_eq_getElem _
    have hs : shapes[i]? = some (shapes[i]'(by rw [hacc.slen]; simpa using hi)) := List.getElem?_eq_getElem _
    obtain ⟨_, _, g3, _⟩ := hget i (.varlen f.1 f.2) _ (by simp [h1]) hv
    have := hacc.sees i (.varlen f.1) r _ _ (by simp [h1]) h2 hv hs
    cases r with
    | field q => exact ⟨q, _, _, rfl, g3 _ _ rfl, this⟩
    | val q => exact this.elim
    | slice sl => exact this.elim
  · rw [e] at e2; cases e2

/-- Such constructions exist: the demo struct. -/
example : ∃ l s', Suitable Demo.S (Demo.sInit 7 3 [1, 2] [10, 11, 12] [5]) Demo.st1 Demo.p1 l ∧
    (Demo.sInit 7 3 [1, 2] [10, 11, 12] [5]).initTo Demo.p1 l Demo.st1 = .ok () s' ∧ StructLit 8 4 (Demo.sFis 7 3 [1, 2] [10, 11, 12] [5]) := by
  obtain ⟨l, h⟩ := Demo.struct_suitable
  rcases h.run (Demo.sInit_lib ..).lib.2 with ⟨v, s2, ev, e2, _⟩ | ⟨m, s2, ev, e2, _⟩
  · exact ⟨l, s2, h, e2, Demo.sLit ..⟩
  · exact absurd ev (by decide +kernel)

/-! ## C36 -/

/-- `muts()` of a struct: mutable references to all fields except the `#[controls_layout]` ones (which are shared references), inside the object, to disjoint memory, each showing
its field; a write through one changes exactly that field, and the layout of the whole stays (`Access`, Spec/Access.lean). -/
theorem C36_struct_muts {headSize headAlign : Nat} {fs : List (Fld w)} (hh : HeaderOk headSize headAlign fs) (hT : ∀ T, Fld.varlen T ∈ fs → LibType T)
    {s : St} {p : Ptr} {v : V} {l : Layout w} (h : Valid (Struct w headSize headAlign fs) s p v l) :
    ∃ vs rs shapes, v = .node vs ∧ aggMuts headSize fs p s = .ok ((fs.map Fld.mutable).zip rs) s ∧
      (∀ f ∈ fs, f.mutable = false ↔ ∃ R off, f = .length R off) ∧ Access (Struct w headSize headAlign fs) fs s p vs l rs shapes := by
  obtain ⟨vs, rs, shapes, h1, _, h2, h3⟩ := Struct.accessIx (hh.structOk fun T h => (hT T h).lawful) h
  refine ⟨vs, rs, shapes, h1, h2, ?_, h3⟩
  intro f _
  cases f <;> simp [Fld.mutable]

theorem zip_true {α : Type} : ∀ {bs : List Bool} {rs : List α}, bs.length = rs.length → (∀ b ∈ bs, b = true) → bs.zip rs = rs.map fun r => (true, r)
  | [], [], _, _ => rfl
  | b :: bs, r :: rs, h, hb => by
    have := hb b (by simp)
    subst this
    simp [zip_true (bs := bs) (rs := rs) (by simpa using h) fun b h => hb b (by simp [h])]
  | [], _ :: _, h, _ => by simp at h
  | _ :: _, [], h, _ => by simp at h

/-- `muts()` of a tuple. -/
theorem C36_tuple_muts {Ts : List (VarLen w)} (hne : Ts ≠ []) (hT : ∀ T ∈ Ts, LibType T) {s : St} {p : Ptr} {v : V} {l : Layout w} (h : Valid (Tuple w Ts) s p v l) :
    ∃ vs rs shapes, v = .node vs ∧ aggMuts 0 (Ts.map .varlen) p s = .ok (rs.map fun r => (true, r)) s ∧ Access (Tuple w Ts) (Ts.map .varlen) s p vs l rs shapes := by
  obtain ⟨vs, rs, shapes, h1, _, h2, h3⟩ := Tuple.accessIx hne (fun T h => (hT T h).lawful) h
  refine ⟨vs, rs, shapes, h1, ?_, h3⟩
  rw [h2]
  congr 1
  refine zip_true (by simpa using h3.rlen.symm) ?_
  intro b hb
  simp only [List.map_map, List.mem_map, Function.comp_apply, Fld.mutable] at hb
  obtain ⟨_, _, rfl⟩ := hb
  rfl

/-- In particular: overwriting a mutable header field with any value of its type gives the struct with exactly that field changed. -/
theorem C36_write_header_field {headSize headAlign : Nat} {fs : List (Fld w)} (hh : HeaderOk headSize headAlign fs) (hT : ∀ T, Fld.varlen T ∈ fs → LibType T)
    {s : St} {p : Ptr} {vs : List V} {l : Layout w} (h : Valid (Struct w headSize headAlign fs) s p (.node vs) l) {i : Nat} {R : RTy} {off : Nat}
    (hi : fs[i]? = some (.normal R off)) {img : Img} (hv : R.valid img = true) :
    ∃ rs q s', aggMuts headSize fs p s = .ok rs s ∧ rs[i]? = some (true, .val q) ∧ writeVal R q img s = .ok () s' ∧
      Valid (Struct w headSize headAlign fs) s' p (.node (vs.set i (.leaf img))) l := by
  have hR := (hh.normal R off (List.mem_of_getElem? hi)).1
  obtain ⟨vs', rs, shapes, e, h2, h3, h4⟩ := C36_struct_muts hh hT h
  cases e
  have hlt : i < fs.length := (List.getElem?_eq_some_iff.1 hi).1
  have hr : rs[i]? = some (rs[i]'(by rw [h4.rlen]; exact hlt)) := List.getElem?_eq_getElem _
  have hvi : vs[i]? = some (vs[i]'(by rw [h4.vlen]; exact hlt)) := List.getElem?_eq_getElem _
  have hs : shapes[i]? = some (shapes[i]'(by rw [h4.slen]; exact hlt)) := List.getElem?_eq_getElem _
  have hsee := h4.sees i _ _ _ _ hi hr hvi hs
  have hz : ((fs.map Fld.mutable).zip rs)[i]? = some (true, rs[i]'(by rw [h4.rlen]; exact hlt)) := by
    rw [List.getElem?_zip_eq_some]
    exact ⟨by simp [hi, Fld.mutable], hr⟩
  generalize rs[i]'(by rw [h4.rlen]; exact hlt) = r at hr hsee hz
  cases r with
  | field q => exact hsee.elim
  | slice sl => exact hsee.elim
  | val q =>
    obtain ⟨ha, hal, img0, _, hsh, _, _⟩ := hsee
    rw [hsh] at ha hs
    simp only [Layout.size, hR.sizeOf_toNat] at ha
    simp only [FixedLen, hR.alignOf_toNat] at hal
    have hlen := hR.valid_len img hv
    have hw' : writeVal R q img s = .ok () (s.write q img) := writeVal_ok (by rw [hlen]; exact ha) hal
    have ht : Touch s (s.write q img) q R.size (fun _ => False) := by rw [← hlen]; exact Touch.write
    refine ⟨_, q, s.write q img, h2, hz, hw', (h4.write i _ _ _ (.leaf img) (s.write q img) hi hr hs rfl ht ?_).1⟩
    refine ⟨?_, ?_, img, rfl, rfl, ?_, hv⟩
    · simp only [Layout.size, hR.sizeOf_toNat]; exact ht.acc (fun h => h) ha
    · simp only [FixedLen, hR.alignOf_toNat]; exact ht.aligned (fun h => h) hal
    · rw [← hlen]; exact takeV_viewAt_write (by rw [hlen]; exact ha)

/-! ## C37 -/

/-- `vdrop` on a valid object runs the destructor of every contained value exactly once, in declaration order (`Destroys`, Spec/Drops.lean), and changes nothing outside
the object. -/
theorem C37_vdrop {T : VarLen w} (hT : LibType T) {s : St} {p : Ptr} {v : V} {l : Layout w} (h : Valid T s p v l) :
    (∃ es, Destroys T v es) ∧ ∀ es, Destroys T v es → ∃ s', T.vdrop p l s = .ok () s' ∧ s'.log = s.log ++ es ∧ Touch s s' p l.size.toNat (fun _ => False) := by
  refine ⟨hT.destroys v l _ h.rep, fun es hd => ?_⟩
  obtain ⟨s', h1, h2, h3, _⟩ := hT.lawful.vdrop_ok s p v l h
  exact ⟨s', h1, by rw [h3, hd.eq], h2⟩

/-- If `NEEDS_VDROP` is false there is nothing to drop: no destructor is owed, so skipping `vdrop` is unobservable. -/
theorem C37_needs_vdrop_false {T : VarLen w} (hT : LibType T) (hn : T.NEEDS_VDROP = false) {s : St} {p : Ptr} {v : V} {l : Layout w} (h : Valid T s p v l)
    {es : List Event} (hd : Destroys T v es) : es = [] := by
  rw [← hd.eq]
  exact hT.lawful.no_vdrop hn v l _ h.rep

/-- Dropping a box runs exactly those destructors. -/
theorem C37_vbox_drop {T : VarLen w} (hT : LibType T) {s : St} {p : Ptr} {v : V} {l : Layout w} (h : BoxHas T s p v l) {es : List Event} (hd : Destroys T v es) :
    ∃ s', VBox.drop T p s = .ok () s' ∧ s'.log = s.log ++ es := by
  obtain ⟨s', e, h2, _⟩ := C11_vbox_drop hT h
  exact ⟨s', e, by rw [h2, hd.eq]⟩

/-- An object for which there is something to drop: the demo struct drops its header field, then the elements of its two arrays. -/
example : ∃ v, (Demo.sInit 7 3 [1, 2] [10, 11, 12] [5]).val = some v ∧ Destroys Demo.S v [7, 1, 2, 5] := by
  refine ⟨.node [.leaf (Demo.d4 7), .leaf (encLE 1 3), .arr [Demo.d4 1, Demo.d4 2], .arr [encLE 1 10, encLE 1 11, encLE 1 12], .arr [Demo.d4 5]], rfl, ?_⟩
  exact .struct (.normal (.length (.varlen .array (.array (.varlen .array .nil)))))

/-! ## C38 -/

/-- The types of the `#[controls_layout]` fields, i.e. of the fields of the generated `LayoutControllers`. -/
def controllerTypes (fs : List (Fld w)) : List RTy := fs.filterMap fun f => match f with | .length R _ => some R | _ => none
/-- The values of the `#[controls_layout]` fields among the values of all fields. -/
def controllerValues (fs : List (Fld w)) (vs : List V) : List V := (fs.zip vs).filterMap fun x => match x.1 with | .length _ _ => some x.2 | _ => none

theorem ctlTys_eq (fs : List (Fld w)) : ctlTys fs = controllerTypes fs := by
  unfold controllerTypes
  induction fs with
  | nil => rfl
  | cons f fs ih => cases f <;> simp [ctlTys, ih]

/-- `try_set_layout_controllers(new)`: let `rs` be what `refs()` gives before the call. If the length of every array field computed from `new` is the length of its current
slice, the call returns `Ok`, the controllers have the new values, all other fields keep theirs, the layout of the object is the same, and the old controller
values have been dropped. If all length expressions return and some computed length differs, the call returns `Err(LayoutMismatch)` and changes no memory (the rejected
argument is dropped). If the length expression of some array field panics on `new`, so does the call; it changes no memory and drops its argument. -/
theorem C38_try_set {headSize headAlign : Nat} {fs : List (Fld w)} (hh : HeaderOk headSize headAlign fs) (hT : ∀ T, Fld.varlen T ∈ fs → LibType T)
    {s : St} {p : Ptr} {vs : List V} {l : Layout w} (h : Valid (Struct w headSize headAlign fs) s p (.node vs) l) {new : List Img}
    (hlen : new.length = (controllerTypes fs).length) (hnew : ∀ (i : Nat) R x, (controllerTypes fs)[i]? = some R → new[i]? = some x → R.valid x = true) :
    ∃ rs old, aggRefs headSize fs p s = .ok rs s ∧ controllerValues fs vs = old.map .leaf ∧
      ((∀ (i : Nat) R len sl, fs[i]? = some (.array R len) → rs[i]? = some (.slice sl) → len.defd new = true ∧ (len new).toNat = sl.len) →
        ∃ s' vs', trySetLayoutControllers fs p new s = .ok true s' ∧ Valid (Struct w headSize headAlign fs) s' p (.node vs') l ∧
          controllerValues fs vs' = new.map .leaf ∧ (∀ (i : Nat) f, fs[i]? = some f → (∀ R off, f ≠ .length R off) → vs'[i]? = vs[i]?) ∧
          Touch s s' p l.size.toNat (fun _ => False) ∧ s'.log = s.log ++ (((controllerTypes fs).zip old).map fun x => x.1.dtor x.2).flatten) ∧
      ((∀ R len, Fld.array R len ∈ fs → len.defd new = true) →
        (∃ (i : Nat) (R : RTy) (len : LenFn w) (sl : Slice), fs[i]? = some (.array R len) ∧ rs[i]? = some (.slice sl) ∧ (len new).toNat ≠ sl.len) →
        ∃ s', trySetLayoutControllers fs p new s = .ok false s' ∧ s'.blocks = s.blocks ∧ s'.log = s.log ++ (((controllerTypes fs).zip new).map fun x => x.1.dtor x.2).flatten) ∧
      ((∃ R len, Fld.array R len ∈ fs ∧ len.defd new = false) →
        ∃ s', trySetLayoutControllers fs p new s = .panic .user s' ∧ s'.blocks = s.blocks ∧ s'.log = s.log ++ (((controllerTypes fs).zip new).map fun x => x.1.dtor x.2).flatten) := by
  have hok : StructOk headSize headAlign fs := hh.structOk fun T h => (hT T h).lawful
  obtain ⟨vs0, rs, shapes, e0, href, _, hacc⟩ := Struct.accessIx hok h
  cases e0
  have hn : Rel2 (fun R x => R.valid x = true) (ctlTys fs) new := by
    rw [ctlTys_eq]
    exact Rel2.of_get hlen.symm hnew
  obtain ⟨hyes, hno, hundef⟩ := trySet_spec hok h hn
  have hr1 : RepHdr fs vs (viewAt s p) := by
    obtain ⟨_, _, vs2, ls2, size2, e3, _, r1, _⟩ := h
    cases e3
    exact r1
  have hdrops : ∀ xs : List Img, controllerDrops fs xs = (((controllerTypes fs).zip xs).map fun x => x.1.dtor x.2).flatten := by
    intro xs
    rw [controllerDrops_zip, ctlTys_eq, ← List.flatMap_def]
    rfl
  refine ⟨rs, lengthsOf fs (viewAt s p), href, (lengthsOf_repHdr fs vs hr1).symm, fun hall => ?_, ?_, fun hu => ⟨_, hundef hu, rfl, by rw [hdrops]⟩⟩
  · have heq : arrayLens fs (lengthsOf fs (viewAt s p)) = arrayLens fs new := by
      rw [arrayLens_eq_iff]
      intro R len hm
      obtain ⟨i, hi⟩ := List.mem_iff_getElem?.1 hm
      obtain ⟨sl, h1, h2⟩ := Struct.slice_len hok h href hi
      exact BitVec.eq_of_toNat_eq (by rw [← h2, (hall i R len sl hi h1).2])
    have hd : LensDefd fs new := by
      intro R len hm
      obtain ⟨i, hi⟩ := List.mem_iff_getElem?.1 hm
      obtain ⟨sl, h1, _⟩ := Struct.slice_len hok h href hi
      exact (hall i R len sl hi h1).1
    obtain ⟨s', k1, k2, k3, k4, k5, k6, k7⟩ := hyes hd heq
    refine ⟨s', _, k1, k2, ?_, fun i f h1 h2 => setCtl_other fs vs new i f h1 h2, k3, by rw [k6, hdrops]⟩
    obtain ⟨_, _, vs2, ls2, size2, e3, _, r1, _⟩ := k2
    cases e3
    exact (lengthsOf_repHdr fs _ r1).symm.trans (by rw [k4])
  · rintro hd ⟨i, R, len, sl, hi, hsl, hne⟩
    have hne' : arrayLens fs (lengthsOf fs (viewAt s p)) ≠ arrayLens fs new := by
      intro heq
      rw [arrayLens_eq_iff] at heq
      obtain ⟨sl', h1, h2⟩ := Struct.slice_len hok h href hi
      rw [hsl] at h1
      cases h1
      rw [h2, heq R len (List.mem_of_getElem? hi)] at hne
      exact hne rfl
    exact ⟨_, hno hd hne', rfl, by rw [hdrops]⟩

/-- Both cases occur: on the demo struct, setting the length `3` again succeeds and setting it to `2` fails. -/
example : Valid Demo.S Demo.sSt Demo.p1 (.node Demo.sVal) Demo.sLay ∧
    (Demo.okOf (trySetLayoutControllers Demo.sFs Demo.p1 [encLE 1 3] Demo.sSt)).map (·.1) = some true ∧
    (Demo.okOf (trySetLayoutControllers Demo.sFs Demo.p1 [encLE 1 2] Demo.sSt)).map (·.1) = some false :=
  ⟨Demo.sSt_valid, by decide +kernel, by decide +kernel⟩

/-! ## C39 -/

/-- A newtype behaves as its inner type. It has the same size, alignment and layout; its values are those of the inner type; `inner()` is a reference to the same object,
which is a valid inner object with the same value; destroying it has the same effects; and initializing it runs the same program. -/
theorem C39_newtype_transparent {T : VarLen w} (hT : LibType T) {s : St} {p : Ptr} {v : V} {l : Layout w} :
    ((Newtype T).headSize = T.headSize ∧ (Newtype T).headAlign = T.headAlign ∧ (Newtype T).ALIGN = T.ALIGN ∧ (Newtype T).NEEDS_VDROP = T.NEEDS_VDROP ∧
      (Newtype T).calculateLayout p s = T.calculateLayout p s) ∧
    (Valid (Newtype T) s p v l ↔ Valid T s p v l) ∧
    (Valid (Newtype T) s p v l → Newtype.inner T p s = .ok p s ∧
      ∃ s₁ s₂, (Newtype T).vdrop p l s = .ok () s₁ ∧ T.vdrop p l s = .ok () s₂ ∧ s₁.log = s₂.log ∧
        Touch s s₁ p l.size.toNat (fun _ => False) ∧ Touch s s₂ p l.size.toNat (fun _ => False)) ∧
    ∀ I : Init w, (Newtype.init I).cautious s = I.cautious s ∧ (Newtype.init I).initTo p l s = I.initTo p l s := by
  refine ⟨⟨rfl, rfl, rfl, rfl, rfl⟩, ⟨NewtypeInv.valid_inner, fun h => ⟨h.acc, h.aligned, h.rep, trivial⟩⟩, fun h => ?_, fun I => ⟨rfl, rfl⟩⟩
  have h' : Valid T s p v l := NewtypeInv.valid_inner h
  obtain ⟨s₁, a1, a2, a3, _⟩ := hT.newtype.lawful.vdrop_ok s p v l h
  obtain ⟨s₂, b1, b2, b3, _⟩ := hT.lawful.vdrop_ok s p v l h'
  exact ⟨Newtype.inner_ok hT.lawful h', s₁, s₂, a1, b1, by rw [a3, b3]; rfl, a2, b2⟩

/-- Such an object exists. -/
example : Valid (Newtype Demo.S) Demo.sSt Demo.p1 (.node Demo.sVal) Demo.sLay :=
  ⟨Demo.sSt_valid.acc, Demo.sSt_valid.aligned, Demo.sSt_valid.rep, trivial⟩

end Varlen
