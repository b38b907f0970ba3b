import Verif.Proofs.Paths
import Verif.Props.Client
/-!
# C69: references deep into an object

Chains of accessor calls, of any length, on objects of any of the library's types nested to any depth.
-/
namespace Varlen
variable {w : Nat} {T : Ty w} {m : Bool} {π π' : List Sel} {k : Kind w} {s : St} {p : Ptr} {v v' : V} {l : Layout w}

/-- The chains that type-check (`at`, which the theorems below are about) are those the user's rules allow. -/
theorem C69_chains {k k' : Kind w} : Chain m k π k' ↔ k.at m π = some k' := by
  constructor
  · intro h
    induction h with
    | here => rfl
    | fixedLen _ ih | array _ ih | newtype _ ih | elem _ ih => simpa [Kind.at, Kind.sel] using ih
    | str hm _ ih => subst hm; simpa [Kind.at, Kind.sel] using ih
    | tuple e _ ih => simpa [Kind.at, Kind.sel, e] using ih
    | length hm e _ ih => subst hm; simpa [Kind.at, Kind.sel, e, TyFld.kind] using ih
    | normal e _ ih | varlen e _ ih | tail e _ ih => simpa [Kind.at, Kind.sel, e, TyFld.kind] using ih
  · induction π generalizing k with
    | nil => intro h; injection h with h; subst h; exact .here _
    | cons c π ih =>
      intro h
      simp only [Kind.at] at h
      split at h
      · next k1 b hs =>
        split at h
        · cases h
        next hb =>
        have h2 := ih h
        unfold Kind.sel at hs
        split at hs
        · injection hs with hs; injection hs with h3 h4; subst h3; exact .fixedLen h2
        · injection hs with hs; injection hs with h3 h4; subst h3; exact .array h2
        · injection hs with hs; injection hs with h3 h4; subst h3 h4; exact .str (by simpa using hb) h2
        · injection hs with hs; injection hs with h3 h4; subst h3; exact .newtype h2
        · simp only [Option.map_eq_some_iff] at hs
          obtain ⟨T, e, h3⟩ := hs
          injection h3 with h3 h4; subst h3; exact .tuple e h2
        · simp only [Option.map_eq_some_iff] at hs
          obtain ⟨f, e, h3⟩ := hs
          cases f with
          | normal P off => injection h3 with h3 h4; subst h3; exact .normal e h2
          | length P off => injection h3 with h3 h4; subst h3 h4; exact .length (by simpa using hb) e h2
          | varlen T => injection h3 with h3 h4; subst h3; exact .varlen e h2
          | array P len => injection h3 with h3 h4; subst h3; exact .tail e h2
        · injection hs with hs; injection hs with h3 h4; subst h3; exact .elem h2
        · cases hs
      · cases h

/-- A chain of accessors that type-checks (`at`), on a valid object: if all indices are in bounds, it gives a reference to memory of the object that shows the part of the object's value that the
chain names. Nothing is changed. -/
theorem C69_reach (hT : TyOk T) (hat : (Kind.obj T).at m π = some k) (h : Valid T.sem s p v l) (hv : v.sub π = some v') :
    ∃ r sh, follow m (.obj T) π (.field p) s = .ok r s ∧ k.Shows s r v' sh ∧ Within r.ptr (k.bytes sh) p l.size.toNat := by
  obtain ⟨_, r, sh, h1⟩ := follow_some (k := .obj T) (r := .field p) hT hat h hv
  exact ⟨r, sh, h1.run, h1.shows, h1.inside⟩

/-- If an index is out of bounds it panics; that is the only case in which there is no such part. Accessors have no undefined behaviour. -/
theorem C69_out_of_bounds (hT : TyOk T) (hat : (Kind.obj T).at m π = some k) (h : Valid T.sem s p v l) :
    (v.sub π = none ↔ v.OutOfBounds π) ∧ (v.OutOfBounds π → follow m (.obj T) π (.field p) s = .panic .outOfBounds s) := by
  obtain ⟨_, ⟨h1, h2⟩ | ⟨v1, r', sh', h1, h2⟩⟩ := follow_spec π (k := .obj T) (r := .field p) hT hat h
  · exact ⟨⟨fun _ => h1, fun h => h.none⟩, fun _ => h2⟩
  · refine ⟨⟨fun e => (by rw [h1] at e; cases e), fun h => h.none⟩, fun e => ?_⟩
    rw [e.none] at h1; cases h1

/-- Reading an ordinary value at the end of a chain gives the part of the object's value. -/
theorem C69_load {P : Plain} (hT : TyOk T) (hat : (Kind.obj T).at m π = some (.val P)) (h : Valid T.sem s p v l) (hv : v.sub π = some v') :
    ∃ x, v' = .leaf x ∧ (do let r ← follow m (.obj T) π (.field p); loadRef P.ty r : M Img) s = .ok x s := by
  obtain ⟨hP, r, sh, h1⟩ := follow_some (k := .obj T) (r := .field p) hT hat h hv
  have h2 := h1.shows
  match r, h1, h2 with
  | .val q, h1, h2 =>
    obtain ⟨x, rfl, rfl, ha, hal, h3, h4⟩ := (FixedLen.shows hP).1 h2
    refine ⟨x, rfl, ?_⟩
    simp only [bind_apply, h1.run, Res.bind_ok, loadRef]
    rw [readVal_ok ha hal (by rw [h3]; exact h4), h3]

/-- Whatever is done through a mutable reference at the end of a chain, if it changes only the memory of that reference and leaves a valid value `x` of the same shape there, the whole object is
valid again, has the same layout, and its value is the old one with this part replaced. -/
theorem C69_write (hT : TyOk T) (hat : (Kind.obj T).at true π = some k) (h : Valid T.sem s p v l) {r : FRef} {sh : Layout w} (hr : follow true (.obj T) π (.field p) s = .ok r s)
    (hs : k.Shows s r v' sh) {s' : St} {x : V} (ht : Touch s s' r.ptr (k.bytes sh) (fun _ => False)) (hx : k.Shows s' r x sh) :
    Valid T.sem s' p (v.put π x) l ∧ (k.owed v' ++ T.sem.drops (v.put π x)).Perm (T.sem.drops v ++ k.owed x) := by
  obtain ⟨hk, ⟨_, e⟩ | ⟨v1, r1, sh1, h1, h2⟩⟩ := follow_spec π (k := .obj T) (r := .field p) hT hat h
  · rw [hr] at e; cases e
  · have e := h2.run
    rw [hr] at e
    injection e with e
    subst e
    obtain ⟨rfl, rfl⟩ := hs.unique hk h2.shows
    exact ⟨h2.write rfl s' x ht hx, h2.owed rfl s' x ht hx⟩

/-- The part replaced reads back as what was put there, … -/
theorem C69_put_same {x : V} (hv : v.sub π = some v') (hx : ∀ a, v' = .leaf a → ∃ b, x = .leaf b) : (v.put π x).sub π = some x := V.sub_put π hv hx
/-- … and all other parts are as before. -/
theorem C69_put_other (hd : Diverge π π') (x : V) : (v.put π x).sub π' = v.sub π' := hd.sub_put v x

/-- References obtained by chains that part somewhere are to disjoint memory, and changing what one refers to does not change what the other shows. -/
theorem C69_disjoint {m' : Bool} {k' : Kind w} (hT : TyOk T) (hd : Diverge π π') (hat : (Kind.obj T).at m π = some k) (hat' : (Kind.obj T).at m' π' = some k') (h : Valid T.sem s p v l)
    {r r' : FRef} {sh sh' : Layout w} {v1 v2 : V} (hr : follow m (.obj T) π (.field p) s = .ok r s) (hr' : follow m' (.obj T) π' (.field p) s = .ok r' s) (hs : k.Shows s r v1 sh)
    (hs' : k'.Shows s r' v2 sh') :
    NoOverlap r.ptr (k.bytes sh) r'.ptr (k'.bytes sh') ∧ ∀ s', Touch s s' r.ptr (k.bytes sh) (fun _ => False) → k'.Shows s' r' v2 sh' := by
  obtain ⟨hk, ⟨_, e⟩ | ⟨w1, r1, sh1, h1, h2⟩⟩ := follow_spec π (k := .obj T) (r := .field p) hT hat h
  · rw [hr] at e; cases e
  obtain ⟨hk', ⟨_, e⟩ | ⟨w2, r2, sh2, h1', h2'⟩⟩ := follow_spec π' (k := .obj T) (r := .field p) hT hat' h
  · rw [hr'] at e; cases e
  have e := h2.run
  rw [hr] at e
  injection e with e
  have e' := h2'.run
  rw [hr'] at e'
  injection e' with e'
  subst e e'
  obtain ⟨rfl, rfl⟩ := hs.unique hk h2.shows
  obtain ⟨rfl, rfl⟩ := hs'.unique hk' h2'.shows
  have hn := follow_apart hd (k := .obj T) (r := .field p) hT hat hat' h h2 h2'
  exact ⟨hn, fun s' ht => hs'.of_touch hk' ht hn⟩

/-- Assigning an ordinary value through a mutable chain: the old value is dropped, once, and the object's value is the old one with this part replaced. Only the memory of the part is written. -/
theorem C69_assign {P : Plain} (hT : TyOk T) (hat : (Kind.obj T).at true π = some (.val P)) (h : Valid T.sem s p v l) (hv : v.sub π = some v') {x : Img} (hx : P.ty.valid x = true) :
    ∃ old r s', v' = .leaf old ∧ follow true (.obj T) π (.field p) s = .ok r s ∧ Within r.ptr P.ty.size p l.size.toNat ∧ assignRef P.ty r x s = .ok () s' ∧
      Valid T.sem s' p (v.put π (.leaf x)) l ∧ s'.log = s.log ++ P.ty.drops old ∧ Touch s s' r.ptr P.ty.size (fun _ => False) ∧
      (P.ty.drops old ++ T.sem.drops (v.put π (.leaf x))).Perm (T.sem.drops v ++ P.ty.drops x) := by
  obtain ⟨hP, r, sh, h1⟩ := follow_some (k := .obj T) (r := .field p) hT hat h hv
  obtain ⟨old, s', rfl, e1, e2, e3, e4⟩ := assignRef_spec hP h1.shows hx
  exact ⟨old, r, s', rfl, h1.run, h1.inside, e1, h1.write rfl s' _ e2 e3, e4, e2, h1.owed rfl s' _ e2 e3⟩

/-- An in-place modification of an object reached by a mutable chain is an in-place modification of the whole object. -/
theorem C69_edit_part {T' : Ty w} (hT : TyOk T) (hat : (Kind.obj T).at true π = some (.obj T')) (h : Valid T.sem s p v l) (hv : v.sub π = some v') :
    ∃ q, follow true (.obj T) π (.field p) s = .ok (.field q) s ∧
      ∀ s' x ev fresh, Edit T'.sem s s' q v' x ev fresh → Edit T.sem s s' p v (v.put π x) ev fresh ∧ Valid T.sem s' p (v.put π x) l := by
  obtain ⟨hk, r, sh, h1⟩ := follow_some (k := .obj T) (r := .field p) hT hat h hv
  have h2 := h1.shows
  match r, h1, h2 with
  | .field q, h1, h2 =>
    have h2' : Valid T'.sem s q v' sh := h2
    refine ⟨q, h1.run, fun s' x ev fresh he => ?_⟩
    obtain ⟨sh', c1, c2, c3⟩ := he.touch
    rw [(TyOk.lib hk).lawful.calc_ok _ _ _ _ h2'] at c1
    injection c1 with c1
    subst c1
    have hx : Valid T'.sem s' q x sh := ⟨c2.acc (fun h => h) h2'.acc, c2.aligned (fun h => h) h2'.aligned, c3⟩
    have hw := h1.write rfl s' x c2 hx
    have hw' : Valid T.sem s' p (v.put π x) l := hw
    have ho := h1.owed rfl s' x c2 hx
    refine ⟨⟨⟨l, hT.lib.lawful.calc_ok _ _ _ _ h, h1.inside.touch c2, hw'.rep⟩, he.log, ?_⟩, hw⟩
    have hval := he.values
    refine List.perm_iff_count.2 fun e => ?_
    have q1 := List.perm_iff_count.1 ho e
    have q2 := List.perm_iff_count.1 hval e
    simp only [List.count_append, Kind.owed] at q1 q2 ⊢
    omega

/-- In any program: assigning through a mutable chain into a box the program holds is well defined, and the program goes on with the value it expects, the rest of its objects untouched. (All that C56
says of programs holds of the world this leads to.) -/
theorem C69_program {P : Plain} {W : World w} {rest : List (Handle w)} (hw : 8 ≤ w) (hW : Reach W) (hT : TyOk T) (ho : W.objs.Perm (.box T.sem p v :: rest))
    (hat : (Kind.obj T).at true π = some (.val P)) (hv : v.sub π = some v') {x : Img} (hx : P.ty.valid x = true) :
    ∃ s', (do let r ← follow true (.obj T) π (.field p); assignRef P.ty r x : M Unit) W.st = .ok () s' ∧
      Reach { W with st := s', objs := .box T.sem p (v.put π (.leaf x)) :: rest, made := W.made ++ P.ty.drops x } := by
  obtain ⟨l, hl⟩ := C56_intact hw hW _ (ho.mem_iff.2 (List.mem_cons_self ..))
  have hval : Valid T.sem W.st p v l := hl.valid
  obtain ⟨old, r, s', e1, e2, e3, e4, e5, e6, e7, e8⟩ := C69_assign hT hat hval hv hx
  refine ⟨s', by simp only [bind_apply, e2, Res.bind_ok, e4], hW.step (.editBox ho (ev := P.ty.drops old) ⟨⟨l, hT.lib.lawful.calc_ok _ _ _ _ hval, e3.touch e7, e5.rep⟩, e6, e8⟩)⟩

/-! ## The hypotheses are met -/
namespace Demo

/-- The second element of the fifth field of the demo struct does not exist; the second of the third does, and may be assigned to; the length field only read. -/
example : (Kind.obj sT).at true [.fld 2, .slice, .elem 1] = some (.val guardP) ∧ (V.node sVal).sub [.fld 2, .slice, .elem 1] = some (.leaf (d4 2)) ∧
    (V.node sVal).OutOfBounds [.fld 4, .slice, .elem 1] ∧ (Kind.obj sT).at true [.fld 1] = none ∧ (Kind.obj sT).at false [.fld 1] = some (.val u8Plain) :=
  ⟨rfl, rfl, ⟨[.fld 4, .slice], 1, [], [d4 5], rfl, rfl, Nat.le_refl _⟩, rfl, rfl⟩

/-- A chain of five accessors. -/
example : (Kind.obj cT).at true [.fld 1, .fld 0, .inner, .slice, .elem 3] = some (.val cellP) := rfl

/-- Assigning to that element. -/
example : ∃ old r s', V.leaf (d4 2) = .leaf old ∧ follow true (.obj sT) [.fld 2, .slice, .elem 1] (.field p1) sSt = .ok r sSt ∧ Within r.ptr 4 p1 sLay.size.toNat ∧
    assignRef D4 r (d4 9) sSt = .ok () s' ∧
    Valid S s' p1 (.node [.leaf (d4 7), .leaf (encLE 1 3), .arr [d4 1, d4 9], .arr [encLE 1 10, encLE 1 11, encLE 1 12], .arr [d4 5]]) sLay ∧ s'.log = sSt.log ++ [2] := by
  obtain ⟨old, r, s', e1, e2, e3, e4, e5, e6, _, _⟩ := C69_assign (π := [.fld 2, .slice, .elem 1]) (P := guardP) sT_ok rfl sSt_valid (v' := .leaf (d4 2)) rfl (x := d4 9) (by decide)
  refine ⟨old, r, s', e1, e2, e3, e4, e5, ?_⟩
  cases e1
  exact e6

end Demo
end Varlen
