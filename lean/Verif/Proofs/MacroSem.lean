import Verif.Proofs.Macro
import Verif.Proofs.Mem
import Verif.Proofs.Struct
import Verif.Spec.MacroSem
/-! # Proofs: the printed code computes what the declared struct means -/
namespace Varlen.Macro
variable {w : Nat}

theorem find?_map_key {α β : Type} [DecidableEq β] (key : α → β) : ∀ (xs : List α) (x : α), (xs.map key).Nodup → x ∈ xs → xs.find? (fun y => key y == key x) = some x := by
  intro xs
  induction xs with
  | nil => intro x _ h; simp at h
  | cons y xs ih =>
    intro x hn hx
    simp only [List.map_cons, List.nodup_cons] at hn
    rcases List.mem_cons.1 hx with rfl | hx
    · simp
    · have : key y ≠ key x := fun e => hn.1 (e ▸ List.mem_map_of_mem hx)
      simp only [List.find?_cons, beq_eq_false_iff_ne.2 this]
      exact ih x hn.2 hx

/-- The situation of a declaration that is accepted by the macro and whose expansion is accepted by the compiler. -/
structure Ctx (camel snake : String → String) (d : Item) (fs : List Field) (o : Output) : Prop where
  eq : o = outputOf camel snake d fs
  acc : ∀ f ∈ fs, f.Acceptable
  named : WellNamed o

variable {camel snake : String → String} {d : Item} {fs : List Field} {o : Output}

theorem Ctx.nodup (c : Ctx camel snake d fs o) : (fs.map Field.ident).Nodup := by
  have h := c.named.decl
  rw [c.eq] at h
  simpa [outputOf, List.map_map, Function.comp_def] using h

theorem Ctx.fieldTy (c : Ctx camel snake d fs o) {f : Field} (hf : f ∈ fs) : o.fieldTy f.ident = some f.declTy := by
  have h := c.named.decl
  rw [c.eq] at h
  have hm : (⟨f.otherAttrs, (visOf f.vis).1, f.ident, f.declTy⟩ : GenField) ∈ (outputOf camel snake d fs).decl := List.mem_map.2 ⟨f, hf, rfl⟩
  have h2 := find?_map_key GenField.ident _ _ h hm
  simp only [Output.fieldTy, c.eq, h2, Option.map_some]

theorem Ctx.plainTy (c : Ctx camel snake d fs o) (ι : Meaning w) {f : Field} (hf : f ∈ fs) (hk : f.kind = .normal ∨ f.kind = .controlsLayout) :
    plainTy ι o f.ident = some (ι.rty f.ty) := by
  unfold Macro.plainTy
  rw [c.fieldTy hf]
  have : f.declTy = .plain f.ty := by rcases hk with hk | hk <;> simp [Field.declTy, hk]
  rw [this]

theorem ctl_eq (fs : List Field) : (fs.filter Field.ctl).map Field.ident = controllers fs := rfl

theorem lenOf_eval (ι : Meaning w) (ctl : List Ident) (e : Tok) (args : List Img) :
    (match ι.expr e (ctl.zip args) with
      | some n => pure n
      | none => panicM .user : M (BitVec w)) = (lenOf ι ctl e).eval args := by
  cases h : ι.expr e (ctl.zip args) with
  | none => simp only [LenFn.eval, lenOf, h]; rfl
  | some n => simp only [LenFn.eval, lenOf, h]; rfl

theorem Ctx.callLen (c : Ctx camel snake d fs o) (ι : Meaning w) {f : Field} (hf : f ∈ fs) (hk : f.kind = .varlenArray) (args : List Img) :
    callLen ι o (mkLenIdent f.ident) args = (lenOf ι (controllers fs) f.ty.len).eval args := by
  have h := c.named.lenFns
  rw [c.eq] at h
  have hm : (mkLenIdent f.ident, f.ty.len) ∈ (outputOf camel snake d fs).lenFns :=
    List.mem_map.2 ⟨f, List.mem_filter.2 ⟨hf, by simp [Field.isArr, hk]⟩, rfl⟩
  have h2 := find?_map_key Prod.fst _ _ h hm
  have h3 : (outputOf camel snake d fs).lenParams.map Prod.fst = controllers fs := by
    simp only [outputOf, List.map_map]; rfl
  simp only [Macro.callLen, c.eq, h2, h3, Option.map_some]
  exact lenOf_eval ι _ _ args

/-! ## Fields by kind -/

section kinds
variable (ι : Meaning w) (ctl : List Ident) (a : InitArgs w) {f : Field}

theorem meaning_normal (h : f.kind = .normal) : f.meaning ι ctl = .normal (ι.rty f.ty) (ι.off f.ident) := by simp [Field.meaning, h]
theorem meaning_length (h : f.kind = .controlsLayout) : f.meaning ι ctl = .length (ι.rty f.ty) (ι.off f.ident) := by simp [Field.meaning, h]
theorem meaning_varlen (h : f.kind = .varlen) : f.meaning ι ctl = .varlen (ι.vty f.ty) := by simp [Field.meaning, h]
theorem meaning_array (h : f.kind = .varlenArray) (ha : f.Acceptable) : f.meaning ι ctl = .array (ι.rty f.ty.elem) (lenOf ι ctl f.ty.len) := by
  obtain ⟨e, n, ht⟩ := ha.array h
  simp [Field.meaning, h, ht, Ty.elem, Ty.len]

theorem initMeaning_normal (h : f.kind = .normal) : f.initMeaning ι ctl a = .normal (ι.rty f.ty) (ι.off f.ident) (a.value f.ident) := by simp [Field.initMeaning, h]
theorem initMeaning_length (h : f.kind = .controlsLayout) : f.initMeaning ι ctl a = .length (ι.rty f.ty) (ι.off f.ident) (a.value f.ident) := by simp [Field.initMeaning, h]
theorem initMeaning_varlen (h : f.kind = .varlen) : f.initMeaning ι ctl a = .varlen (ι.vty f.ty) (a.init f.ident) := by simp [Field.initMeaning, h]
theorem initMeaning_array (h : f.kind = .varlenArray) (ha : f.Acceptable) :
    f.initMeaning ι ctl a = .array (ι.rty f.ty.elem) (lenOf ι ctl f.ty.len) (a.array f.ident) := by
  obtain ⟨e, n, ht⟩ := ha.array h
  simp [Field.initMeaning, h, ht, Ty.elem, Ty.len]

theorem initMeaning_fld (ha : f.Acceptable) : (f.initMeaning ι ctl a).fld = f.meaning ι ctl := by
  cases hk : f.kind with
  | normal => rw [initMeaning_normal ι ctl a hk, meaning_normal ι ctl hk]; rfl
  | controlsLayout => rw [initMeaning_length ι ctl a hk, meaning_length ι ctl hk]; rfl
  | varlen => rw [initMeaning_varlen ι ctl a hk, meaning_varlen ι ctl hk]; rfl
  | varlenArray => rw [initMeaning_array ι ctl a hk ha, meaning_array ι ctl hk ha]; rfl
end kinds

/-! ## Reading the controllers -/

theorem Ctx.readFields (c : Ctx camel snake d fs o) (ι : Meaning w) (ctl : List Ident) (p : Ptr) : ∀ (sub : List Field), (∀ f ∈ sub, f ∈ fs) →
    readFields ι o p ((sub.filter Field.ctl).map Field.ident) = readLengths p (sub.map (Field.meaning ι ctl)) := by
  intro sub
  induction sub with
  | nil => intro _; rfl
  | cons f sub ih =>
    intro h
    have ih := ih fun g hg => h g (by simp [hg])
    have hf := h f (by simp)
    cases hk : f.kind with
    | normal => simpa [Field.ctl, hk, meaning_normal ι ctl hk, readLengths] using ih
    | controlsLayout =>
      simp only [List.map_cons, meaning_length ι ctl hk, readLengths, Field.ctl, hk, beq_self_eq_true, List.filter_cons_of_pos, Macro.readFields,
        c.plainTy ι hf (Or.inr hk)]
      rw [ih]
    | varlen => simpa [Field.ctl, hk, meaning_varlen ι ctl hk, readLengths] using ih
    | varlenArray => simpa [Field.ctl, hk, meaning_array ι ctl hk (c.acc f hf), readLengths] using ih

/-! ## Environments -/

theorem Env.set_same (env : Env w) (x : Ident) (u v : LVal w) : (env.set x u).set x v = env.set x v := by
  funext y; simp only [Env.set]; split <;> rfl
theorem Env.set_comm (env : Env w) {x y : Ident} (h : x ≠ y) (u v : LVal w) : (env.set x u).set y v = (env.set y v).set x u := by
  funext z; simp only [Env.set]
  by_cases h1 : z = y
  · simp [h1, Ne.symm h]
  · simp [h1]
theorem Env.set_get (env : Env w) (x : Ident) (v : LVal w) : (env.set x v) x = some v := by simp [Env.set]
theorem Env.set_ne (env : Env w) {x y : Ident} (h : y ≠ x) (v : LVal w) : (env.set x v) y = env y := by simp [Env.set, h]

/-- How the layout of a tail field is stored in a variable. -/
def Field.lval (f : Field) (l : Layout w) : LVal w :=
  match f.isArr, l with
  | true, .len n => .word n
  | _, l => .lay l

/-- The variables after the `let`s of the fields. -/
def final (env : Env w) : List Field → List (BitVec w × Layout w) → BitVec w → Env w
  | [], _, size => env.set "size" (.word size)
  | f :: fs, ls, size =>
    if f.tail then
      match ls with
      | (off, l) :: ls => final ((env.set f.ident (.word off)).set f.layoutIdent (f.lval l)) fs ls size
      | [] => env.set "size" (.word size)
    else final env fs ls size

/-- The names bound for the tail fields. -/
def tailNames (fs : List Field) : List Ident := (fs.filter Field.tail).flatMap fun f => [f.ident, f.layoutIdent]

theorem final_size (x : LVal w) : ∀ (fs : List Field) ls (env : Env w) size, "size" ∉ tailNames fs → final (env.set "size" x) fs ls size = final env fs ls size := by
  intro fs
  induction fs with
  | nil => intro ls env size _; simp [final, Env.set_same]
  | cons f fs ih =>
    intro ls env size h
    by_cases ht : f.tail = true
    · simp only [tailNames, ht, List.filter_cons_of_pos, List.flatMap_cons, List.mem_append, List.mem_cons, List.not_mem_nil, or_false, not_or] at h
      cases ls with
      | nil => simp [final, ht, Env.set_same]
      | cons ol ls =>
        obtain ⟨off, l⟩ := ol
        simp only [final, ht, if_true]
        rw [Env.set_comm env h.1.1, Env.set_comm _ h.1.2]
        exact ih ls _ size h.2
    · simp only [tailNames, ht, Bool.false_eq_true, not_false_eq_true, List.filter_cons_of_neg] at h
      simp only [final, ht, Bool.false_eq_true, if_false]
      exact ih ls env size h

/-- The number and kinds of the entries of a layout are those of the tail fields. -/
def Shape : List Field → List (BitVec w × Layout w) → Prop
  | [], ls => ls = []
  | f :: fs, ls =>
    if f.tail then ∃ off l ls', ls = (off, l) :: ls' ∧ (f.isArr = true → ∃ n, l = .len n) ∧ Shape fs ls'
    else Shape fs ls

theorem final_other {x : Ident} (hx : x ≠ "size") : ∀ (fs : List Field) ls (env : Env w) size, x ∉ tailNames fs → final env fs ls size x = env x := by
  intro fs
  induction fs with
  | nil => intro ls env size _; simp [final, Env.set_ne _ hx]
  | cons f fs ih =>
    intro ls env size h
    by_cases ht : f.tail = true
    · simp only [tailNames, ht, List.filter_cons_of_pos, List.flatMap_cons, List.mem_append, List.mem_cons, List.not_mem_nil, or_false, not_or] at h
      cases ls with
      | nil => simp [final, ht, Env.set_ne _ hx]
      | cons ol ls =>
        obtain ⟨off, l⟩ := ol
        simp only [final, ht, if_true]
        rw [ih ls _ size h.2, Env.set_ne _ h.1.2, Env.set_ne _ h.1.1]
    · simp only [tailNames, ht, Bool.false_eq_true, not_false_eq_true, List.filter_cons_of_neg] at h
      simp only [final, ht, Bool.false_eq_true, if_false]
      exact ih ls env size h

theorem final_get_size : ∀ (fs : List Field) ls (env : Env w) size, final env fs ls size "size" = some (.word size) := by
  intro fs
  induction fs with
  | nil => intro ls env size; simp [final, Env.set_get]
  | cons f fs ih =>
    intro ls env size
    simp only [final]
    split
    · split
      · exact ih _ _ _
      · simp [Env.set_get]
    · exact ih _ _ _

/-- The declared fields of the printed `VarLenLayout` after `size`. -/
def layFieldsOf (fs : List Field) : List GenField :=
  (fs.filter Field.tail).flatMap fun f => [⟨[], .Super, f.ident, .usize⟩, ⟨[], .Super, f.layoutIdent, if f.isArr then .usize else .layoutOf f.ty⟩]

theorem layoutPairs_final {val : Ident → Option (LVal w)} {size : BitVec w} : ∀ (fs : List Field) ls (env : Env w), Shape fs ls → (tailNames fs).Nodup → "size" ∉ tailNames fs →
    (∀ x ∈ tailNames fs, val x = final env fs ls size x) → layoutPairs val (layFieldsOf fs) = some ls := by
  intro fs
  induction fs with
  | nil => intro ls env h _ _ _; simp only [Shape] at h; subst h; rfl
  | cons f fs ih =>
    intro ls env h hn hs hv
    by_cases ht : f.tail = true
    · simp only [Shape, ht, if_true] at h
      obtain ⟨off, l, ls', rfl, harr, h⟩ := h
      have en : tailNames (f :: fs) = f.ident :: f.layoutIdent :: tailNames fs := by simp [tailNames, ht]
      rw [en] at hn hs hv
      simp only [List.nodup_cons, List.mem_cons, not_or] at hn hs
      obtain ⟨⟨n1, n2⟩, n3, n4⟩ := hn
      have e0 : ∀ x, final env (f :: fs) ((off, l) :: ls') size x = final ((env.set f.ident (.word off)).set f.layoutIdent (f.lval l)) fs ls' size x := by
        intro x; simp only [final, ht, if_true]
      have e1 : val f.ident = some (.word off) := by
        rw [hv _ (by simp), e0, final_other (Ne.symm hs.1) _ _ _ _ n2, Env.set_ne _ n1, Env.set_get]
      have e2 : val f.layoutIdent = some (f.lval l) := by
        rw [hv _ (by simp), e0, final_other (Ne.symm hs.2.1) _ _ _ _ n3, Env.set_get]
      have e3 := ih ls' _ h n4 hs.2.2 fun x hx => by rw [hv x (by simp [hx]), e0]
      have el : layFieldsOf (f :: fs) = ⟨[], .Super, f.ident, .usize⟩ :: ⟨[], .Super, f.layoutIdent, if f.isArr then .usize else .layoutOf f.ty⟩ :: layFieldsOf fs := by
        simp [layFieldsOf, ht]
      rw [el]
      cases ha : f.isArr with
      | true =>
        obtain ⟨n, rfl⟩ := harr ha
        simp only [layoutPairs, e1, e2, e3, Field.lval, ha, if_true]
      | false =>
        simp only [layoutPairs, e1, e2, e3, Field.lval, ha, Bool.false_eq_true, if_false]
    · have en : tailNames (f :: fs) = tailNames fs := by simp [tailNames, ht]
      have el : layFieldsOf (f :: fs) = layFieldsOf fs := by simp [layFieldsOf, ht]
      rw [en] at hn hs hv
      rw [el]
      simp only [Shape, ht, Bool.false_eq_true, if_false] at h
      exact ih ls env h hn hs fun x hx => by rw [hv x hx]; simp [final, ht]

/-! ## The layout literal -/

theorem Ctx.layoutNames (c : Ctx camel snake d fs o) : (tailNames fs).Nodup ∧ "size" ∉ tailNames fs := by
  have h := c.named.layout
  rw [c.eq] at h
  have e : (outputOf camel snake d fs).varLenLayout.map GenField.ident = "size" :: tailNames fs := by
    simp only [outputOf, List.map_cons, List.map_flatMap, tailNames, List.map_nil]
  rw [e, List.nodup_cons] at h
  exact ⟨h.2, h.1⟩

theorem Ctx.layoutLiteral (c : Ctx camel snake d fs o) {env : Env w} {ls : List (BitVec w × Layout w)} {size : BitVec w} (h : Shape fs ls) :
    layoutLiteral o (final env fs ls size) = some (.fields size ls) := by
  obtain ⟨hn, hs⟩ := c.layoutNames
  have e1 : o.layoutLit = tailNames fs ++ ["size"] := by rw [c.eq]; rfl
  have e2 : o.varLenLayout = ⟨[], .Super, "size", .usize⟩ :: layFieldsOf fs := by rw [c.eq]; rfl
  simp only [Macro.layoutLiteral, e1, e2]
  have e3 := layoutPairs_final (val := fun x => if x ∈ tailNames fs ++ ["size"] then final env fs ls size x else none) (size := size) fs ls env h hn hs
    fun x hx => by simp [hx]
  rw [e3]
  simp [final_get_size]

/-! ## `calculate_layout` -/

theorem Ctx.noLengths (c : Ctx camel snake d fs o) : (fs.filter Field.tail).Pairwise fun a b => b.isArr = true → a.ident ≠ "lengths" ∧ a.layoutIdent ≠ "lengths" := by
  have h := c.named.fastLengths
  rw [c.eq] at h
  simp only [outputOf, List.pairwise_map] at h
  exact h.imp fun {a b} hab hb => hab (by simp [Field.catFast, hb, CatExpr.usesLengths])

theorem Res.bind_assoc {σ α β γ : Type} (r : Res σ α) (f : α → MS σ β) (g : β → MS σ γ) : (r.bind f).bind g = r.bind fun a => f a >>= g := by
  cases r <;> rfl

theorem Ctx.runFast (c : Ctx camel snake d fs o) (ι : Meaning w) (p : Ptr) (lens : List Img) (hfs : ∀ f ∈ fs, f.Acceptable) :
    ∀ (sub : List Field) (env : Env w) cur s, (∀ f ∈ sub, f ∈ fs) → "size" ∉ tailNames sub →
    (sub.filter Field.tail).Pairwise (fun a b => b.isArr = true → a.ident ≠ "lengths" ∧ a.layoutIdent ≠ "lengths") →
    env "size" = some (.word cur) → ((∃ f ∈ sub, f.isArr = true) → env "lengths" = some (.tuple lens)) →
    runFast ι o p ((sub.filter Field.tail).map fun f => ⟨f.ident, f.layoutIdent, f.catFast⟩) env s =
      (catFieldsFast p lens (sub.map (Field.meaning ι (controllers fs))) cur s).bind fun r => pure (final env sub r.1 r.2) := by
  intro sub
  induction sub with
  | nil =>
    intro env cur s _ _ _ hsz _
    have : env = env.set "size" (.word cur) := by
      funext y; simp only [Env.set]; split
      · rename_i h; rw [h, hsz]
      · rfl
    simp only [List.filter_nil, List.map_nil, Macro.runFast, catFieldsFast, final, pure_apply, Res.bind_ok]
    rw [← this]
  | cons f sub ih =>
    intro env cur s hsub hs hp hsz hlen
    have hf := hsub f (by simp)
    have hsub' : ∀ g ∈ sub, g ∈ fs := fun g hg => hsub g (by simp [hg])
    have skip : f.tail = false → (∀ cur, catFieldsFast p lens ((f :: sub).map (Field.meaning ι (controllers fs))) cur =
        catFieldsFast p lens (sub.map (Field.meaning ι (controllers fs))) cur) →
        Macro.runFast ι o p (((f :: sub).filter Field.tail).map fun f => ⟨f.ident, f.layoutIdent, f.catFast⟩) env s =
          (catFieldsFast p lens ((f :: sub).map (Field.meaning ι (controllers fs))) cur s).bind fun r => pure (final env (f :: sub) r.1 r.2) := by
      intro ht hc
      have hs' : "size" ∉ tailNames sub := by simpa [tailNames, ht] using hs
      have hp' : (sub.filter Field.tail).Pairwise (fun a b => b.isArr = true → a.ident ≠ "lengths" ∧ a.layoutIdent ≠ "lengths") := by simpa [ht] using hp
      have := ih env cur s hsub' hs' hp' hsz fun ⟨g, hg, hga⟩ => hlen ⟨g, by simp [hg], hga⟩
      rw [hc]
      simpa [ht, final] using this
    cases hk : f.kind with
    | normal => exact skip (by simp [Field.tail, hk]) fun cur => by simp [meaning_normal ι _ hk, catFieldsFast]
    | controlsLayout => exact skip (by simp [Field.tail, hk]) fun cur => by simp [meaning_length ι _ hk, catFieldsFast]
    | varlen =>
      have ht : f.tail = true := by simp [Field.tail, hk]
      have ha : f.isArr = false := by simp [Field.isArr, hk]
      have en : tailNames (f :: sub) = f.ident :: f.layoutIdent :: tailNames sub := by simp [tailNames, ht]
      rw [en] at hs
      simp only [List.mem_cons, not_or] at hs
      simp only [ht, List.filter_cons_of_pos, List.pairwise_cons] at hp
      have ec : f.catFast = .fieldFast f.ty := by simp [Field.catFast, ha]
      simp only [ht, List.filter_cons_of_pos, List.map_cons, Macro.runFast, ec, evalFast, hsz, meaning_varlen ι _ hk, catFieldsFast, bind_apply, Res.bind_assoc]
      cases hcf : catFieldFast (ι.vty f.ty) p cur s with
      | panic m s' => rfl
      | ub k => rfl
      | ok r s' =>
        obtain ⟨off, l, cur'⟩ := r
        simp only [Res.bind_ok, pure_apply, bind_apply, Res.bind_assoc]
        rw [ih _ cur' s' hsub' hs.2.2 hp.2 (Env.set_get _ _ _) ?_]
        · congr 1
          funext r s''
          rw [final_size _ _ _ _ _ hs.2.2]
          simp [final, ht, Field.lval, ha]
        · rintro ⟨g, hg, hga⟩
          have hg' : g ∈ sub.filter Field.tail := List.mem_filter.2 ⟨hg, by simp only [Field.isArr] at hga; simp [Field.tail, hga]⟩
          obtain ⟨h1, h2⟩ := hp.1 g hg' hga
          rw [Env.set_ne _ (by decide), Env.set_ne _ (Ne.symm h2), Env.set_ne _ (Ne.symm h1)]
          exact hlen ⟨g, by simp [hg], hga⟩
    | varlenArray =>
      have ht : f.tail = true := by simp [Field.tail, hk]
      have ha : f.isArr = true := by simp [Field.isArr, hk]
      have en : tailNames (f :: sub) = f.ident :: f.layoutIdent :: tailNames sub := by simp [tailNames, ht]
      rw [en] at hs
      simp only [List.mem_cons, not_or] at hs
      simp only [ht, List.filter_cons_of_pos, List.pairwise_cons] at hp
      have hl := hlen ⟨f, by simp, ha⟩
      have ec : f.catFast = .arrayFast f.ty.elem (mkLenIdent f.ident) := by simp [Field.catFast, ha]
      simp only [ht, List.filter_cons_of_pos, List.map_cons, Macro.runFast, ec, evalFast, hsz, hl, c.callLen ι hf hk, meaning_array ι _ hk (hfs f hf), catFieldsFast, bind_apply,
        catArrayFieldFast, Res.bind_assoc]
      cases hd : (lenOf ι (controllers fs) f.ty.len).defd lens with
      | false => rw [LenFn.eval_panic _ hd]; rfl
      | true =>
      simp only [LenFn.eval_ok _ hd, Res.bind_ok, bind_apply, pure_apply, Res.bind_assoc]
      rw [ih _ _ s hsub' hs.2.2 hp.2 (Env.set_get _ _ _) ?_]
      · congr 1
        funext r s''
        rw [final_size _ _ _ _ _ hs.2.2]
        simp [final, ht, Field.lval, ha]
      · rintro ⟨g, hg, hga⟩
        have hg' : g ∈ sub.filter Field.tail := List.mem_filter.2 ⟨hg, by simp only [Field.isArr] at hga; simp [Field.tail, hga]⟩
        obtain ⟨h1, h2⟩ := hp.1 g hg' hga
        rw [Env.set_ne _ (by decide), Env.set_ne _ (Ne.symm h2), Env.set_ne _ (Ne.symm h1)]
        exact hl

theorem catFieldsFast_shape (ι : Meaning w) (ctl : List Ident) (p : Ptr) (lens : List Img) : ∀ (sub : List Field) cur s r s', (∀ f ∈ sub, f.Acceptable) →
    catFieldsFast p lens (sub.map (Field.meaning ι ctl)) cur s = .ok r s' → Shape sub r.1 := by
  intro sub
  induction sub with
  | nil =>
    intro cur s r s' _ h
    simp only [List.map_nil, catFieldsFast, pure_apply, Res.ok.injEq] at h
    rw [← h.1]; rfl
  | cons f sub ih =>
    intro cur s r s' hacc h
    have hacc' : ∀ g ∈ sub, g.Acceptable := fun g hg => hacc g (by simp [hg])
    cases hk : f.kind with
    | normal =>
      simp only [List.map_cons, meaning_normal ι _ hk, catFieldsFast] at h
      simpa [Shape, Field.tail, hk] using ih _ _ _ _ hacc' h
    | controlsLayout =>
      simp only [List.map_cons, meaning_length ι _ hk, catFieldsFast] at h
      simpa [Shape, Field.tail, hk] using ih _ _ _ _ hacc' h
    | varlen =>
      simp only [List.map_cons, meaning_varlen ι _ hk, catFieldsFast, bind_apply] at h
      cases hcf : catFieldFast (ι.vty f.ty) p cur s with
      | panic m s' => simp [hcf] at h
      | ub k => simp [hcf] at h
      | ok r1 s1 =>
        obtain ⟨off, l, cur'⟩ := r1
        simp only [hcf, Res.bind_ok, bind_apply] at h
        cases hc2 : catFieldsFast p lens (sub.map (Field.meaning ι ctl)) cur' s1 with
        | panic m s' => simp [hc2] at h
        | ub k => simp [hc2] at h
        | ok r2 s2 =>
          simp only [hc2, Res.bind_ok, pure_apply, Res.ok.injEq] at h
          rw [← h.1]
          simp only [Shape, Field.tail, hk]
          exact ⟨off, l, r2.1, rfl, by simp [Field.isArr, hk], ih _ _ _ _ hacc' hc2⟩
    | varlenArray =>
      simp only [List.map_cons, meaning_array ι _ hk (hacc f (by simp)), catFieldsFast, bind_apply, catArrayFieldFast] at h
      cases hd : (lenOf ι ctl f.ty.len).defd lens with
      | false => rw [LenFn.eval_panic _ hd] at h; cases h
      | true =>
      simp only [LenFn.eval_ok _ hd, Res.bind_ok, bind_apply] at h
      generalize hc : maskDown (cur + (RTy.alignOf w (ι.rty f.ty.elem) - 1)) (RTy.alignOf w (ι.rty f.ty.elem)) +
        RTy.sizeOf w (ι.rty f.ty.elem) * lenOf ι ctl f.ty.len lens = c' at h
      cases hc2 : catFieldsFast p lens (sub.map (Field.meaning ι ctl)) c' s with
      | panic m s' => simp [hc2] at h
      | ub k => simp [hc2] at h
      | ok r2 s2 =>
        simp only [hc2, Res.bind_ok, pure_apply, Res.ok.injEq] at h
        rw [← h.1]
        simp only [Shape, Field.tail, hk]
        exact ⟨_, _, r2.1, rfl, fun _ => ⟨_, rfl⟩, ih _ _ _ _ hacc' hc2⟩

theorem Ctx.genCalc (c : Ctx camel snake d fs o) (ι : Meaning w) : genCalc ι o = aggCalc ι.headSize (meaning ι fs) := by
  funext p s
  have e1 : o.lenParams.map Prod.fst = (fs.filter Field.ctl).map Field.ident := by rw [c.eq]; simp only [outputOf, List.map_map]; rfl
  have e2 : o.fastLets = (fs.filter Field.tail).map fun f => ⟨f.ident, f.layoutIdent, f.catFast⟩ := by rw [c.eq]; rfl
  simp only [Macro.genCalc, aggCalc, bind_apply, e1, e2, meaning]
  rw [c.readFields ι (controllers fs) p fs fun _ h => h]
  cases readLengths p (fs.map (Field.meaning ι (controllers fs))) s with
  | panic m s' => rfl
  | ub k => rfl
  | ok lens s' =>
    simp only [Res.bind_ok, bind_apply]
    rw [c.runFast ι p lens c.acc fs _ (BitVec.ofNat w ι.headSize) s' (fun _ h => h) c.layoutNames.2 c.noLengths (Env.set_get _ _ _) fun _ => by
      rw [Env.set_ne _ (by decide), Env.set_get]]
    cases hc : catFieldsFast p lens (fs.map (Field.meaning ι (controllers fs))) (BitVec.ofNat w ι.headSize) s' with
    | panic m s' => rfl
    | ub k => rfl
    | ok r s2 =>
      simp only [Res.bind_ok, pure_apply]
      rw [c.layoutLiteral (catFieldsFast_shape ι _ p lens fs _ _ _ _ c.acc hc)]
      rfl

/-! ## Fields of a layout -/

theorem pairField_skip {x : Ident} : ∀ (pre : List Field) (dls : List (BitVec w × Layout w)) post ls, dls.length = (pre.filter Field.tail).length → x ∉ tailNames pre →
    pairField x (layFieldsOf (pre ++ post)) (dls ++ ls) = pairField x (layFieldsOf post) ls := by
  intro pre
  induction pre with
  | nil => intro dls post ls h _; cases dls <;> simp_all
  | cons f pre ih =>
    intro dls post ls h hx
    by_cases ht : f.tail = true
    · have en : tailNames (f :: pre) = f.ident :: f.layoutIdent :: tailNames pre := by simp [tailNames, ht]
      have el : layFieldsOf (f :: pre ++ post) = ⟨[], .Super, f.ident, .usize⟩ :: ⟨[], .Super, f.layoutIdent, if f.isArr then .usize else .layoutOf f.ty⟩ :: layFieldsOf (pre ++ post) := by
        simp [layFieldsOf, ht]
      rw [en] at hx
      simp only [List.mem_cons, not_or] at hx
      cases dls with
      | nil => simp [ht] at h
      | cons ol dls =>
        obtain ⟨off, l⟩ := ol
        rw [el]
        simp only [List.cons_append, pairField, Ne.symm hx.1, Ne.symm hx.2.1, if_false]
        exact ih dls post ls (by simpa [ht] using h) hx.2.2
    · have en : tailNames (f :: pre) = tailNames pre := by simp [tailNames, ht]
      have el : layFieldsOf (f :: pre ++ post) = layFieldsOf (pre ++ post) := by simp [layFieldsOf, ht]
      rw [el]
      exact ih dls post ls (by simpa [ht] using h) (by rwa [en] at hx)

theorem Ctx.layoutField_skip (c : Ctx camel snake d fs o) {pre post : List Field} (hfs : fs = pre ++ post) {f : Field} (hf : f ∈ post) (ht : f.tail = true) {size : BitVec w}
    {dls ls : List (BitVec w × Layout w)} (hd : dls.length = (pre.filter Field.tail).length) {x : Ident} (hx : x = f.ident ∨ x = f.layoutIdent) :
    layoutField o (.fields size (dls ++ ls)) x = pairField x (layFieldsOf post) ls := by
  obtain ⟨hn, hs⟩ := c.layoutNames
  have hm : x ∈ tailNames post := List.mem_flatMap.2 ⟨f, List.mem_filter.2 ⟨hf, ht⟩, by rcases hx with rfl | rfl <;> simp⟩
  have en : tailNames fs = tailNames pre ++ tailNames post := by rw [hfs]; simp [tailNames]
  have hxs : "size" ≠ x := by rintro rfl; exact hs (by rw [en]; simp [hm])
  have hxp : x ∉ tailNames pre := fun h => by
    rw [en] at hn
    exact (List.nodup_append.1 hn).2.2 x h x hm rfl
  have e2 : o.varLenLayout = ⟨[], .Super, "size", .usize⟩ :: layFieldsOf fs := by rw [c.eq]; rfl
  simp only [layoutField, e2, hxs, if_false]
  rw [hfs, pairField_skip pre dls post ls hd hxp]

/-- Fields of a layout for the first of the remaining fields. -/
theorem Ctx.layoutField_head (c : Ctx camel snake d fs o) {pre post : List Field} {f : Field} (hfs : fs = pre ++ f :: post) (ht : f.tail = true) {size : BitVec w}
    {dls ls : List (BitVec w × Layout w)} (hd : dls.length = (pre.filter Field.tail).length) :
    (ls = [] → layoutField o (.fields size (dls ++ ls)) f.ident = none ∧ layoutField o (.fields size (dls ++ ls)) f.layoutIdent = none) ∧
    (∀ off l ls', ls = (off, l) :: ls' → layoutField o (.fields size (dls ++ ls)) f.ident = some (.word off) ∧
      layoutField o (.fields size (dls ++ ls)) f.layoutIdent = if f.isArr then (match l with | .len n => some (.word n) | _ => none) else some (.lay l)) := by
  have e1 := c.layoutField_skip (size := size) (ls := ls) hfs (by simp) ht hd (Or.inl rfl)
  have e2 := c.layoutField_skip (size := size) (ls := ls) hfs (by simp) ht hd (Or.inr rfl)
  have el : layFieldsOf (f :: post) = ⟨[], .Super, f.ident, .usize⟩ :: ⟨[], .Super, f.layoutIdent, if f.isArr then .usize else .layoutOf f.ty⟩ :: layFieldsOf post := by
    simp [layFieldsOf, ht]
  have hne : f.ident ≠ f.layoutIdent := by
    have hn := c.layoutNames.1
    rw [hfs] at hn
    have en : tailNames (pre ++ f :: post) = tailNames pre ++ (f.ident :: f.layoutIdent :: tailNames post) := by simp [tailNames, ht]
    rw [en] at hn
    have := (List.nodup_append.1 hn).2.1
    simp only [List.nodup_cons, List.mem_cons, not_or] at this
    exact this.1.1
  rw [e1, e2, el]
  constructor
  · rintro rfl; exact ⟨rfl, rfl⟩
  · rintro off l ls' rfl
    simp only [pairField, if_true, hne, if_false, true_and]
    cases f.isArr with
    | false => simp
    | true => simp only [if_true]; cases l <;> rfl

/-! ## `vdrop` -/

theorem Ctx.runDrops (c : Ctx camel snake d fs o) (ι : Meaning w) (p : Ptr) (size : BitVec w) : ∀ (post pre : List Field) (dls ls : List (BitVec w × Layout w)), fs = pre ++ post →
    dls.length = (pre.filter Field.tail).length →
    runDrops ι o p (.fields size (dls ++ ls)) (post.map Field.dropStmt) = vdropFields p (post.map (Field.meaning ι (controllers fs))) ls := by
  intro post
  induction post with
  | nil => intro pre dls ls _ _; simp [Macro.runDrops, vdropFields]
  | cons f post ih =>
    intro pre dls ls hfs hd
    have hf : f ∈ fs := by rw [hfs]; simp
    have hfs' : fs = (pre ++ [f]) ++ post := by rw [hfs]; simp
    cases hk : f.kind with
    | normal =>
      have ih := ih (pre ++ [f]) dls ls hfs' (by simp [Field.tail, hk, hd])
      have e : f.dropStmt = .inPlace f.ident := by simp [Field.dropStmt, Field.isArr, Field.isVarlen, hk]
      simp only [List.map_cons, Macro.runDrops, e, runDrop, c.plainTy ι hf (Or.inl hk), meaning_normal ι _ hk, vdropFields, ih]
    | controlsLayout =>
      have ih := ih (pre ++ [f]) dls ls hfs' (by simp [Field.tail, hk, hd])
      have e : f.dropStmt = .inPlace f.ident := by simp [Field.dropStmt, Field.isArr, Field.isVarlen, hk]
      simp only [List.map_cons, Macro.runDrops, e, runDrop, c.plainTy ι hf (Or.inr hk), meaning_length ι _ hk, vdropFields, ih]
    | varlen =>
      have ht : f.tail = true := by simp [Field.tail, hk]
      have ha : f.isArr = false := by simp [Field.isArr, hk]
      have e : f.dropStmt = .field f.ty f.ident f.layoutIdent := by simp [Field.dropStmt, Field.isArr, Field.isVarlen, hk, Field.layoutIdent]
      obtain ⟨h1, h2⟩ := c.layoutField_head (size := size) (ls := ls) hfs ht hd
      simp only [List.map_cons, Macro.runDrops, e, runDrop, meaning_varlen ι _ hk]
      cases ls with
      | nil =>
        rw [(h1 rfl).1]
        simp only [vdropFields]
        funext s; rfl
      | cons ol ls =>
        obtain ⟨off, l⟩ := ol
        obtain ⟨h3, h4⟩ := h2 off l ls rfl
        have ih := ih (pre ++ [f]) (dls ++ [(off, l)]) ls hfs' (by simp [ht, hd])
        rw [List.append_assoc, List.singleton_append] at ih
        rw [h3, h4, ih]
        simp [ha, vdropFields]
    | varlenArray =>
      have ht : f.tail = true := by simp [Field.tail, hk]
      have ha : f.isArr = true := by simp [Field.isArr, hk]
      have e : f.dropStmt = .array f.ty.elem f.ident f.layoutIdent := by simp [Field.dropStmt, Field.isArr, hk, Field.layoutIdent]
      obtain ⟨h1, h2⟩ := c.layoutField_head (size := size) (ls := ls) hfs ht hd
      simp only [List.map_cons, Macro.runDrops, e, runDrop, meaning_array ι _ hk (c.acc f hf)]
      cases ls with
      | nil =>
        rw [(h1 rfl).1]
        simp only [vdropFields]
        funext s; rfl
      | cons ol ls =>
        obtain ⟨off, l⟩ := ol
        obtain ⟨h3, h4⟩ := h2 off l ls rfl
        have ih := ih (pre ++ [f]) (dls ++ [(off, l)]) ls hfs' (by simp [ht, hd])
        rw [List.append_assoc, List.singleton_append] at ih
        rw [h3, h4, ih]
        simp only [ha, if_true]
        cases l with
        | len n => simp only [vdropFields]
        | fixed _ => simp only [vdropFields]; funext s; rfl
        | array _ _ _ => simp only [vdropFields]; funext s; rfl
        | fields _ _ => simp only [vdropFields]; funext s; rfl

theorem Ctx.genVdrop (c : Ctx camel snake d fs o) (ι : Meaning w) : genVdrop ι o = aggVdrop (meaning ι fs) := by
  funext p l
  have e : o.drops = fs.map Field.dropStmt := by rw [c.eq]; rfl
  cases l with
  | fields size ls =>
    simp only [Macro.genVdrop, e, aggVdrop, meaning]
    exact c.runDrops ι p size fs [] [] ls rfl rfl
  | _ => rfl

/-! ## Constants -/

theorem Ctx.genAlign (c : Ctx camel snake d fs o) (ι : Meaning w) : genAlign ι o = arrayMax (BitVec.ofNat w ι.headAlign :: tailAligns (meaning ι fs)) := by
  have e : o.aligns = (fs.filter Field.tail).map fun f => if f.isArr then .elem f.ty.elem else .varlen f.ty := by rw [c.eq]; rfl
  simp only [Macro.genAlign, e, meaning]
  congr 2
  have h := c.acc
  generalize controllers fs = ctl
  clear e c
  induction fs with
  | nil => rfl
  | cons f fs ih =>
    have ih := ih fun g hg => h g (by simp [hg])
    cases hk : f.kind with
    | normal => simpa [Field.tail, hk, meaning_normal ι _ hk, tailAligns] using ih
    | controlsLayout => simpa [Field.tail, hk, meaning_length ι _ hk, tailAligns] using ih
    | varlen => simpa [Field.tail, hk, meaning_varlen ι _ hk, tailAligns, Field.isArr] using ih
    | varlenArray => simpa [Field.tail, hk, meaning_array ι _ hk (h f (by simp)), tailAligns, Field.isArr] using ih

theorem Ctx.genNeeds (c : Ctx camel snake d fs o) (ι : Meaning w) : genNeeds ι o = (meaning ι fs).any Fld.needsVdrop := by
  have e : o.needs = fs.map Field.needs := by rw [c.eq]; rfl
  simp only [Macro.genNeeds, e, meaning]
  have h := c.acc
  generalize controllers fs = ctl
  clear e c
  induction fs with
  | nil => rfl
  | cons f fs ih =>
    have ih := ih fun g hg => h g (by simp [hg])
    simp only [List.map_cons, List.foldr_cons, List.any_cons]
    rw [ih]
    cases hk : f.kind with
    | normal => simp [Field.needs, Field.isArr, Field.isVarlen, hk, meaning_normal ι _ hk, Fld.needsVdrop]
    | controlsLayout => simp [Field.needs, Field.isArr, Field.isVarlen, hk, meaning_length ι _ hk, Fld.needsVdrop]
    | varlen => simp [Field.needs, Field.isArr, Field.isVarlen, hk, meaning_varlen ι _ hk, Fld.needsVdrop]
    | varlenArray => simp [Field.needs, Field.isArr, hk, meaning_array ι _ hk (h f (by simp)), Fld.needsVdrop]

theorem Ctx.genVarLen (c : Ctx camel snake d fs o) (ι : Meaning w) : genVarLen ι o fs = Struct w ι.headSize ι.headAlign (meaning ι fs) := by
  simp only [Macro.genVarLen, Struct, c.genCalc, c.genVdrop, c.genAlign, c.genNeeds]

/-! ## `calculate_layout_cautious` -/

theorem Ctx.noLengths' (c : Ctx camel snake d fs o) : (fs.filter Field.tail).Pairwise fun a b => b.isArr = true → a.ident ≠ "lengths" ∧ a.layoutIdent ≠ "lengths" := by
  have h := c.named.cautiousLengths
  rw [c.eq] at h
  simp only [outputOf, List.pairwise_map] at h
  exact h.imp fun {a b} hab hb => hab (by simp [Field.catCautious, hb, CatExpr.usesLengths])

theorem initLengths_map (ι : Meaning w) (ctl : List Ident) (a : InitArgs w) : ∀ (sub : List Field), (∀ f ∈ sub, f.Acceptable) →
    ((sub.filter Field.ctl).map Field.ident).map a.value = initLengths (sub.map (Field.initMeaning ι ctl a)) := by
  intro sub
  induction sub with
  | nil => intro _; rfl
  | cons f sub ih =>
    intro h
    have ih := ih fun g hg => h g (by simp [hg])
    unfold initLengths at ih ⊢
    cases hk : f.kind with
    | normal => simpa [Field.ctl, hk, initMeaning_normal ι ctl a hk] using ih
    | controlsLayout => simpa [Field.ctl, hk, initMeaning_length ι ctl a hk] using ih
    | varlen => simpa [Field.ctl, hk, initMeaning_varlen ι ctl a hk] using ih
    | varlenArray => simpa [Field.ctl, hk, initMeaning_array ι ctl a hk (h f (by simp))] using ih

theorem Ctx.runCautious (c : Ctx camel snake d fs o) (ι : Meaning w) (a : InitArgs w) (lens : List Img) (hfs : ∀ f ∈ fs, f.Acceptable) :
    ∀ (sub : List Field) (env : Env w) cur s, (∀ f ∈ sub, f ∈ fs) → "size" ∉ tailNames sub →
    (sub.filter Field.tail).Pairwise (fun a b => b.isArr = true → a.ident ≠ "lengths" ∧ a.layoutIdent ≠ "lengths") →
    env "size" = some (.word cur) → ((∃ f ∈ sub, f.isArr = true) → env "lengths" = some (.tuple lens)) →
    runCautious ι o a ((sub.filter Field.tail).map fun f => ⟨f.ident, f.layoutIdent, f.catCautious⟩) env s =
      (catFieldsCautious lens (sub.map (Field.initMeaning ι (controllers fs) a)) cur s).bind fun r => pure (r.map fun r => final env sub r.1 r.2) := by
  intro sub
  induction sub with
  | nil =>
    intro env cur s _ _ _ hsz _
    have : env = env.set "size" (.word cur) := by
      funext y; simp only [Env.set]; split
      · rename_i h; rw [h, hsz]
      · rfl
    simp only [List.filter_nil, List.map_nil, Macro.runCautious, catFieldsCautious, final, pure_apply, Res.bind_ok, Option.map_some]
    rw [← this]
  | cons f sub ih =>
    intro env cur s hsub hs hp hsz hlen
    have hf := hsub f (by simp)
    have hsub' : ∀ g ∈ sub, g ∈ fs := fun g hg => hsub g (by simp [hg])
    have skip : f.tail = false → (∀ cur, catFieldsCautious lens ((f :: sub).map (Field.initMeaning ι (controllers fs) a)) cur =
        catFieldsCautious lens (sub.map (Field.initMeaning ι (controllers fs) a)) cur) →
        Macro.runCautious ι o a (((f :: sub).filter Field.tail).map fun f => ⟨f.ident, f.layoutIdent, f.catCautious⟩) env s =
          (catFieldsCautious lens ((f :: sub).map (Field.initMeaning ι (controllers fs) a)) cur s).bind fun r => pure (r.map fun r => final env (f :: sub) r.1 r.2) := by
      intro ht hc
      have hs' : "size" ∉ tailNames sub := by simpa [tailNames, ht] using hs
      have hp' : (sub.filter Field.tail).Pairwise (fun a b => b.isArr = true → a.ident ≠ "lengths" ∧ a.layoutIdent ≠ "lengths") := by simpa [ht] using hp
      have := ih env cur s hsub' hs' hp' hsz fun ⟨g, hg, hga⟩ => hlen ⟨g, by simp [hg], hga⟩
      rw [hc]
      simpa [ht, final] using this
    cases hk : f.kind with
    | normal => exact skip (by simp [Field.tail, hk]) fun cur => by simp [initMeaning_normal ι _ a hk, catFieldsCautious]
    | controlsLayout => exact skip (by simp [Field.tail, hk]) fun cur => by simp [initMeaning_length ι _ a hk, catFieldsCautious]
    | varlen =>
      have ht : f.tail = true := by simp [Field.tail, hk]
      have ha : f.isArr = false := by simp [Field.isArr, hk]
      have en : tailNames (f :: sub) = f.ident :: f.layoutIdent :: tailNames sub := by simp [tailNames, ht]
      rw [en] at hs
      simp only [List.mem_cons, not_or] at hs
      simp only [ht, List.filter_cons_of_pos, List.pairwise_cons] at hp
      have ec : f.catCautious = .fieldCautious f.ty f.ident := by simp [Field.catCautious, ha]
      simp only [ht, List.filter_cons_of_pos, List.map_cons, Macro.runCautious, ec, evalCautious, hsz, initMeaning_varlen ι _ a hk, catFieldsCautious, bind_apply, Res.bind_assoc]
      cases hcf : catFieldCautious (ι.vty f.ty).ALIGN (a.init f.ident) cur s with
      | panic m s' => rfl
      | ub k => rfl
      | ok r s' =>
        match r with
        | none => rfl
        | some (off, l, cur') =>
        simp only [Res.bind_ok, pure_apply, bind_apply, Res.bind_assoc]
        rw [ih _ cur' s' hsub' hs.2.2 hp.2 (Env.set_get _ _ _) ?_]
        · congr 1
          funext r s''
          match r with
          | none => rfl
          | some (ls, size) =>
            simp only [Option.map_some, pure_apply, bind_apply, Res.bind_ok]
            rw [final_size _ _ _ _ _ hs.2.2]
            simp [final, ht, Field.lval, ha]
        · rintro ⟨g, hg, hga⟩
          have hg' : g ∈ sub.filter Field.tail := List.mem_filter.2 ⟨hg, by simp only [Field.isArr] at hga; simp [Field.tail, hga]⟩
          obtain ⟨h1, h2⟩ := hp.1 g hg' hga
          rw [Env.set_ne _ (by decide), Env.set_ne _ (Ne.symm h2), Env.set_ne _ (Ne.symm h1)]
          exact hlen ⟨g, by simp [hg], hga⟩
    | varlenArray =>
      have ht : f.tail = true := by simp [Field.tail, hk]
      have ha : f.isArr = true := by simp [Field.isArr, hk]
      have en : tailNames (f :: sub) = f.ident :: f.layoutIdent :: tailNames sub := by simp [tailNames, ht]
      rw [en] at hs
      simp only [List.mem_cons, not_or] at hs
      simp only [ht, List.filter_cons_of_pos, List.pairwise_cons] at hp
      have hl := hlen ⟨f, by simp, ha⟩
      have ec : f.catCautious = .arrayCautious f.ty.elem (mkLenIdent f.ident) := by simp [Field.catCautious, ha]
      simp only [ht, List.filter_cons_of_pos, List.map_cons, Macro.runCautious, ec, evalCautious, hsz, hl, c.callLen ι hf hk, initMeaning_array ι _ a hk (hfs f hf), catFieldsCautious,
        bind_apply]
      cases hd : (lenOf ι (controllers fs) f.ty.len).defd lens with
      | false => rw [LenFn.eval_panic _ hd]; rfl
      | true =>
      simp only [LenFn.eval_ok _ hd, Res.bind_ok]
      cases hca : catArrayFieldCautious (ι.rty f.ty.elem) (lenOf ι (controllers fs) f.ty.len lens) cur with
      | none => rfl
      | some r =>
        obtain ⟨off, n, cur'⟩ := r
        simp only [pure_apply, Res.bind_ok, bind_apply, Res.bind_assoc]
        rw [ih _ _ s hsub' hs.2.2 hp.2 (Env.set_get _ _ _) ?_]
        · congr 1
          funext r s''
          match r with
          | none => rfl
          | some (ls, size) =>
            simp only [Option.map_some, pure_apply, bind_apply, Res.bind_ok]
            rw [final_size _ _ _ _ _ hs.2.2]
            simp [final, ht, Field.lval, ha]
        · rintro ⟨g, hg, hga⟩
          have hg' : g ∈ sub.filter Field.tail := List.mem_filter.2 ⟨hg, by simp only [Field.isArr] at hga; simp [Field.tail, hga]⟩
          obtain ⟨h1, h2⟩ := hp.1 g hg' hga
          rw [Env.set_ne _ (by decide), Env.set_ne _ (Ne.symm h2), Env.set_ne _ (Ne.symm h1)]
          exact hl

theorem catFieldsCautious_shape (ι : Meaning w) (ctl : List Ident) (a : InitArgs w) (lens : List Img) : ∀ (sub : List Field) cur s r s', (∀ f ∈ sub, f.Acceptable) →
    catFieldsCautious lens (sub.map (Field.initMeaning ι ctl a)) cur s = .ok (some r) s' → Shape sub r.1 := by
  intro sub
  induction sub with
  | nil =>
    intro cur s r s' _ h
    simp only [List.map_nil, catFieldsCautious, pure_apply, Res.ok.injEq, Option.some.injEq] at h
    rw [← h.1]; rfl
  | cons f sub ih =>
    intro cur s r s' hacc h
    have hacc' : ∀ g ∈ sub, g.Acceptable := fun g hg => hacc g (by simp [hg])
    cases hk : f.kind with
    | normal =>
      simp only [List.map_cons, initMeaning_normal ι _ a hk, catFieldsCautious] at h
      simpa [Shape, Field.tail, hk] using ih _ _ _ _ hacc' h
    | controlsLayout =>
      simp only [List.map_cons, initMeaning_length ι _ a hk, catFieldsCautious] at h
      simpa [Shape, Field.tail, hk] using ih _ _ _ _ hacc' h
    | varlen =>
      simp only [List.map_cons, initMeaning_varlen ι _ a hk, catFieldsCautious, bind_apply] at h
      cases hcf : catFieldCautious (ι.vty f.ty).ALIGN (a.init f.ident) cur s with
      | panic m s' => simp [hcf] at h
      | ub k => simp [hcf] at h
      | ok r1 s1 =>
        match r1 with
        | none => simp [hcf] at h
        | some (off, l, cur') =>
        simp only [hcf, Res.bind_ok, bind_apply] at h
        cases hc2 : catFieldsCautious lens (sub.map (Field.initMeaning ι ctl a)) cur' s1 with
        | panic m s' => simp [hc2] at h
        | ub k => simp [hc2] at h
        | ok r2 s2 =>
          match r2 with
          | none => simp [hc2] at h
          | some r2 =>
          simp only [hc2, Res.bind_ok, pure_apply, Res.ok.injEq, Option.some.injEq] at h
          rw [← h.1]
          simp only [Shape, Field.tail, hk]
          exact ⟨off, l, r2.1, rfl, by simp [Field.isArr, hk], ih _ _ _ _ hacc' hc2⟩
    | varlenArray =>
      simp only [List.map_cons, initMeaning_array ι _ a hk (hacc f (by simp)), catFieldsCautious, bind_apply] at h
      cases hd : (lenOf ι ctl f.ty.len).defd lens with
      | false => rw [LenFn.eval_panic _ hd] at h; cases h
      | true =>
      simp only [LenFn.eval_ok _ hd, Res.bind_ok] at h
      cases hca : catArrayFieldCautious (ι.rty f.ty.elem) (lenOf ι ctl f.ty.len lens) cur with
      | none => simp [hca] at h
      | some r1 =>
        obtain ⟨off, n, cur'⟩ := r1
        simp only [hca, bind_apply] at h
        cases hc2 : catFieldsCautious lens (sub.map (Field.initMeaning ι ctl a)) cur' s with
        | panic m s' => simp [hc2] at h
        | ub k => simp [hc2] at h
        | ok r2 s2 =>
          match r2 with
          | none => simp [hc2] at h
          | some r2 =>
          simp only [hc2, Res.bind_ok, pure_apply, Res.ok.injEq, Option.some.injEq] at h
          rw [← h.1]
          simp only [Shape, Field.tail, hk]
          exact ⟨off, .len n, r2.1, rfl, fun _ => ⟨n, rfl⟩, ih _ _ _ _ hacc' hc2⟩

theorem Ctx.genCautious (c : Ctx camel snake d fs o) (ι : Meaning w) (a : InitArgs w) : genCautious ι o a = aggCautious ι.bareHeadSize (initMeaning ι fs a) := by
  funext s
  have e1 : o.lenParams.map Prod.fst = (fs.filter Field.ctl).map Field.ident := by rw [c.eq]; simp only [outputOf, List.map_map]; rfl
  have e2 : o.cautiousLets = (fs.filter Field.tail).map fun f => ⟨f.ident, f.layoutIdent, f.catCautious⟩ := by rw [c.eq]; rfl
  simp only [Macro.genCautious, aggCautious, bind_apply, e1, e2, initMeaning]
  rw [initLengths_map ι (controllers fs) a fs c.acc]
  generalize hlens : initLengths (fs.map (Field.initMeaning ι (controllers fs) a)) = lens
  rw [c.runCautious ι a lens c.acc fs _ (BitVec.ofNat w ι.bareHeadSize) s (fun _ h => h) c.layoutNames.2 c.noLengths' (Env.set_get _ _ _) fun _ => by
    rw [Env.set_ne _ (by decide), Env.set_get]]
  cases hc : catFieldsCautious lens (fs.map (Field.initMeaning ι (controllers fs) a)) (BitVec.ofNat w ι.bareHeadSize) s with
  | panic m s' => rfl
  | ub k => rfl
  | ok r s2 =>
    match r with
    | none => rfl
    | some r =>
    simp only [Res.bind_ok, pure_apply, Option.map_some]
    rw [c.layoutLiteral (catFieldsCautious_shape ι _ a lens fs _ _ _ _ c.acc hc)]
    rfl

/-! ## `initialize` -/

theorem overwrite_nil (o : View) (off : Nat) : overwrite o off [] = o := by
  funext i
  exact overwrite_out o off i [] (by simp)

theorem MS.bind_pure {σ α β : Type} (x : MS σ α) (f : α → β) (s : σ) : (x >>= fun a => pure (f a)) s = (x s).bind fun a => pure (f a) := rfl

theorem Ctx.dropInitField (c : Ctx camel snake d fs o) (ι : Meaning w) (a : InitArgs w) {f : Field} (hf : f ∈ fs) {at_ : List Tok} {vis : SimpleVisibility} :
    dropInitField ι o a ⟨at_, vis, f.ident, f.initTy camel⟩ = (f.initMeaning ι (controllers fs) a).dropI := by
  have hp := c.named.initParams
  cases hk : f.kind with
  | normal => simp [Macro.dropInitField, Field.initTy, hk, initMeaning_normal ι _ a hk, FI.dropI]
  | controlsLayout => simp [Macro.dropInitField, Field.initTy, hk, initMeaning_length ι _ a hk, FI.dropI]
  | varlen =>
    have hm : (mkInitIdent camel f.ident, if f.isArr then GenBound.arrayInitializer f.ty.elem else .initializer f.ty) ∈ o.initParams := by
      rw [c.eq]
      exact List.mem_map.2 ⟨f, List.mem_filter.2 ⟨hf, by simp [Field.tail, hk]⟩, rfl⟩
    have h2 := find?_map_key Prod.fst _ _ hp hm
    have hi : f.initTy camel = .param (mkInitIdent camel f.ident) := by simp [Field.initTy, hk, mkInitIdent]
    have ha : f.isArr = false := by simp [Field.isArr, hk]
    simp only [ha, Bool.false_eq_true, if_false] at h2
    simp only [Macro.dropInitField, hi, h2, Option.map_some, initMeaning_varlen ι _ a hk, FI.dropI]
  | varlenArray =>
    have hm : (mkInitIdent camel f.ident, if f.isArr then GenBound.arrayInitializer f.ty.elem else .initializer f.ty) ∈ o.initParams := by
      rw [c.eq]
      exact List.mem_map.2 ⟨f, List.mem_filter.2 ⟨hf, by simp [Field.tail, hk]⟩, rfl⟩
    have h2 := find?_map_key Prod.fst _ _ hp hm
    have hi : f.initTy camel = .param (mkInitIdent camel f.ident) := by simp [Field.initTy, hk, mkInitIdent]
    have ha : f.isArr = true := by simp [Field.isArr, hk]
    simp only [ha, if_true] at h2
    simp only [Macro.dropInitField, hi, h2, Option.map_some, initMeaning_array ι _ a hk (c.acc f hf), FI.dropI]

theorem Ctx.dropInitFields (c : Ctx camel snake d fs o) (ι : Meaning w) (a : InitArgs w) : ∀ (sub : List Field) (pre : List Ident), (∀ f ∈ sub, f ∈ fs) →
    (∀ f ∈ sub, f.ident ∉ pre) →
    dropInitFields ι o a pre (sub.map fun f => ⟨f.otherAttrs, (visOf f.vis).2, f.ident, f.initTy camel⟩) = dropFIs (sub.map (Field.initMeaning ι (controllers fs) a)) := by
  intro sub
  induction sub with
  | nil => intro pre _ _; rfl
  | cons f sub ih =>
    intro pre hs hp
    have ih := ih pre (fun g hg => hs g (by simp [hg])) (fun g hg => hp g (by simp [hg]))
    simp only [List.map_cons, Macro.dropInitFields, dropFIs, if_neg (hp f (by simp)), c.dropInitField ι a (hs f (by simp)), ih]

theorem dropInitFields_skip (ι : Meaning w) (o : Output) (a : InitArgs w) (moved : List Ident) (post : List GenField) : ∀ (pre : List GenField), (∀ g ∈ pre, g.ident ∈ moved) →
    dropInitFields ι o a moved (pre ++ post) = dropInitFields ι o a moved post := by
  intro pre
  induction pre with
  | nil => intro _; rfl
  | cons g pre ih =>
    intro h
    rw [List.cons_append, Macro.dropInitFields, if_pos (h g (by simp)), ih fun g hg => h g (by simp [hg])]

theorem Ctx.genUnwind (c : Ctx camel snake d fs o) (ι : Meaning w) (a : InitArgs w) {pre post : List Field} (hfs : fs = pre ++ post) (done : List (RTy × Img)) {moved : List Ident}
    (hm : ∀ x, x ∈ moved ↔ x ∈ pre.map Field.ident) :
    genUnwind ι o a done moved = unwindInit false done (post.map (Field.initMeaning ι (controllers fs) a)) := by
  have hn := c.nodup
  have e : o.init = fs.map fun f => ⟨f.otherAttrs, (visOf f.vis).2, f.ident, f.initTy camel⟩ := by rw [c.eq]; rfl
  simp only [Macro.genUnwind, unwindInit, Bool.false_eq_true, if_false, e]
  conv => lhs; rw [hfs, List.map_append]
  rw [dropInitFields_skip, c.dropInitFields ι a post moved]
  · intro f hf; rw [hfs]; simp [hf]
  · intro f hf hx
    rw [hfs, List.map_append, List.nodup_append] at hn
    exact hn.2.2 _ ((hm _).1 hx) _ (List.mem_map.2 ⟨f, hf, rfl⟩) rfl
  · intro g hg
    obtain ⟨f, hf, rfl⟩ := List.mem_map.1 hg
    exact (hm _).2 (List.mem_map.2 ⟨f, hf, rfl⟩)

theorem onUnwind_pure {σ α : Type} (x : α) (cl : MS σ Unit) : onUnwind (pure x) cl = (pure x : MS σ α) := rfl

theorem onUnwind_map {σ α β : Type} (x : MS σ α) (f : α → β) (cl : MS σ Unit) (s : σ) :
    onUnwind (do let a ← x; pure (f a)) cl s = (onUnwind x cl s).bind fun a => pure (f a) := by
  simp only [onUnwind, bind_apply]
  cases x s with
  | ok a s' => rfl
  | ub k => rfl
  | panic m s' =>
    simp only [Res.bind_panic]
    cases cl s' <;> rfl

theorem Ctx.evalInits (c : Ctx camel snake d fs o) (ι : Meaning w) (a : InitArgs w) (p : Ptr) (size : BitVec w) : ∀ (post pre : List Field) (dls ls : List (BitVec w × Layout w))
    (done : List (RTy × Img)) (moved : List Ident) s, fs = pre ++ post → dls.length = (pre.filter Field.tail).length → (∀ x, x ∈ moved ↔ x ∈ pre.map Field.ident) →
    evalInits ι o a p (.fields size (dls ++ ls)) done moved (post.map fun f => (f.ident, f.initExpr)) s =
      (initTails false p done (post.map (Field.initMeaning ι (controllers fs) a)) ls s).bind fun _ => pure (hdrView (post.map (Field.initMeaning ι (controllers fs) a))) := by
  intro post
  induction post with
  | nil => intro pre dls ls done moved s _ _ _; rfl
  | cons f post ih =>
    intro pre dls ls done moved s hfs hd hm
    have hf : f ∈ fs := by rw [hfs]; simp
    have hfs' : fs = (pre ++ [f]) ++ post := by rw [hfs]; simp
    have hm' : ∀ x, x ∈ f.initExpr.moves :: moved ↔ x ∈ (pre ++ [f]).map Field.ident := by
      intro x
      have : f.initExpr.moves = f.ident := by
        simp only [Field.initExpr]
        split
        · rfl
        · split <;> rfl
      rw [List.mem_cons, hm x, this, List.map_append, List.mem_append]
      simp [Or.comm]
    cases hk : f.kind with
    | normal =>
      have e : f.initExpr = .self f.ident := by simp [Field.initExpr, Field.isArr, Field.isVarlen, hk]
      have et : tempOf ι o f.ident (a.value f.ident) = [(ι.rty f.ty, a.value f.ident)] := by simp [tempOf, c.plainTy ι hf (.inl hk)]
      have ih := ih (pre ++ [f]) dls ls ((ι.rty f.ty, a.value f.ident) :: done) _ s hfs' (by simp [Field.tail, hk, hd]) hm'
      rw [e] at ih
      simp only [List.map_cons, Macro.evalInits, e, evalInit, onUnwind_pure, et, List.singleton_append, initMeaning_normal ι _ a hk, initTails, hdrView, bind_apply, pure_apply, Res.bind_ok, ih,
        Res.bind_assoc]
      rfl
    | controlsLayout =>
      have e : f.initExpr = .self f.ident := by simp [Field.initExpr, Field.isArr, Field.isVarlen, hk]
      have et : tempOf ι o f.ident (a.value f.ident) = [(ι.rty f.ty, a.value f.ident)] := by simp [tempOf, c.plainTy ι hf (.inr hk)]
      have ih := ih (pre ++ [f]) dls ls ((ι.rty f.ty, a.value f.ident) :: done) _ s hfs' (by simp [Field.tail, hk, hd]) hm'
      rw [e] at ih
      simp only [List.map_cons, Macro.evalInits, e, evalInit, onUnwind_pure, et, List.singleton_append, initMeaning_length ι _ a hk, initTails, hdrView, bind_apply, pure_apply, Res.bind_ok, ih,
        Res.bind_assoc]
      rfl
    | varlen =>
      have ht : f.tail = true := by simp [Field.tail, hk]
      have ha : f.isArr = false := by simp [Field.isArr, hk]
      have e : f.initExpr = .field f.ident f.layoutIdent := by simp [Field.initExpr, Field.isArr, Field.isVarlen, hk, Field.layoutIdent]
      have et : ∀ img, tempOf ι o f.ident img = [] := by intro img; simp [tempOf, Macro.plainTy, c.fieldTy hf, Field.declTy, hk]
      have hu := c.genUnwind ι a hfs' done hm'
      obtain ⟨h1, h2⟩ := c.layoutField_head (size := size) (ls := ls) hfs ht hd
      rw [e] at hm' hu
      simp only [List.map_cons, Macro.evalInits, e, evalInit, initMeaning_varlen ι _ a hk, hdrView, bind_apply, hu, et, List.nil_append]
      cases ls with
      | nil =>
        rw [(h1 rfl).1]
        rfl
      | cons ol ls =>
        obtain ⟨off, l⟩ := ol
        obtain ⟨h3, h4⟩ := h2 off l ls rfl
        rw [h3, h4]
        simp only [ha, Bool.false_eq_true, if_false, initTails, bind_apply, Res.bind_assoc]
        rw [onUnwind_map (initField (a.init f.ident) p off l) (fun _ => ([] : Img))]
        cases onUnwind (initField (a.init f.ident) p off l) (unwindInit false done (post.map (Field.initMeaning ι (controllers fs) a))) s with
        | panic m s' => rfl
        | ub k => rfl
        | ok _ s' =>
          have ih := ih (pre ++ [f]) (dls ++ [(off, l)]) ls done _ s' hfs' (by simp [ht, hd]) hm'
          rw [List.append_assoc, List.singleton_append] at ih
          simp only [Res.bind_ok, pure_apply, bind_apply, ih, Res.bind_assoc, overwrite_nil]
          rfl
    | varlenArray =>
      have ht : f.tail = true := by simp [Field.tail, hk]
      have ha : f.isArr = true := by simp [Field.isArr, hk]
      have e : f.initExpr = .array f.ident f.layoutIdent := by simp [Field.initExpr, Field.isArr, hk, Field.layoutIdent]
      have ety : o.fieldTy f.ident = some (.arrayMarker f.ty.elem) := by
        rw [c.fieldTy hf]
        obtain ⟨e, n, ht⟩ := (c.acc f hf).array hk
        simp [Field.declTy, hk, ht, Ty.elem]
      have et : ∀ img, tempOf ι o f.ident img = [] := by intro img; simp [tempOf, Macro.plainTy, ety]
      have hu := c.genUnwind ι a hfs' done hm'
      obtain ⟨h1, h2⟩ := c.layoutField_head (size := size) (ls := ls) hfs ht hd
      rw [e] at hm' hu
      simp only [List.map_cons, Macro.evalInits, e, evalInit, initMeaning_array ι _ a hk (c.acc f hf), hdrView, bind_apply, ety, hu, et, List.nil_append]
      cases ls with
      | nil =>
        rw [(h1 rfl).1]
        rfl
      | cons ol ls =>
        obtain ⟨off, l⟩ := ol
        obtain ⟨h3, h4⟩ := h2 off l ls rfl
        rw [h3, h4]
        simp only [ha, if_true]
        cases l with
        | len n =>
          simp only [initTails, bind_apply, Res.bind_assoc]
          rw [onUnwind_map (initArray (ι.rty f.ty.elem) (a.array f.ident) p off n) (fun _ => ([] : Img))]
          cases onUnwind (initArray (ι.rty f.ty.elem) (a.array f.ident) p off n) (unwindInit false done (post.map (Field.initMeaning ι (controllers fs) a))) s with
          | panic m s' => rfl
          | ub k => rfl
          | ok _ s' =>
            have ih := ih (pre ++ [f]) (dls ++ [(off, .len n)]) ls done _ s' hfs' (by simp [ht, hd]) hm'
            rw [List.append_assoc, List.singleton_append] at ih
            simp only [Res.bind_ok, pure_apply, bind_apply, ih, Res.bind_assoc, overwrite_nil]
            rfl
        | _ => rfl

theorem Ctx.genInit (c : Ctx camel snake d fs o) (ι : Meaning w) (a : InitArgs w) : genInit ι o a = aggInit false ι.headSize ι.headAlign (initMeaning ι fs a) := by
  funext p l s
  have e : o.inits = fs.map fun f => (f.ident, f.initExpr) := by rw [c.eq]; rfl
  cases l with
  | fields size ls =>
    have h := c.evalInits ι a p size fs [] [] ls [] [] s rfl rfl (by simp)
    rw [List.nil_append] at h
    simp only [Macro.genInit, e, bind_apply, h, aggInit, initMeaning, Res.bind_assoc]
    rfl
  | _ => rfl

theorem Ctx.genInitializer (c : Ctx camel snake d fs o) (ι : Meaning w) (hb : ι.bareHeadSize = ι.headSize) (a : InitArgs w) :
    genInitializer ι o fs a = Struct.init ι.headSize ι.headAlign (initMeaning ι fs a) := by
  have e : o.init = fs.map fun f => ⟨f.otherAttrs, (visOf f.vis).2, f.ident, f.initTy camel⟩ := by rw [c.eq]; rfl
  simp only [Macro.genInitializer, c.genCautious, hb, c.genInit, Struct.init, aggInitializer, e, c.dropInitFields ι a fs [] (fun _ h => h) (by simp), initMeaning]

/-! ## `refs()` and `muts()` -/

theorem Ctx.evalRefs (c : Ctx camel snake d fs o) (ι : Meaning w) (p : Ptr) (size : BitVec w) {decl : List GenField} {ty : Field → GenTy}
    (hdecl : ∀ f ∈ fs, ∃ g, decl.find? (fun g => g.ident == f.ident) = some g ∧ g.ty = ty f)
    (hty1 : ∀ f, f.kind = .varlen → ty f = .ref f.ty ∨ ty f = .pinMut f.ty)
    (hty2 : ∀ f ∈ fs, f.kind = .varlenArray → ty f = .refSlice f.ty.elem ∨ ty f = .mutSlice f.ty.elem) :
    ∀ (post pre : List Field) (dls ls : List (BitVec w × Layout w)) s, fs = pre ++ post → dls.length = (pre.filter Field.tail).length →
    evalRefs ι o p (.fields size (dls ++ ls)) decl (post.map fun f => (f.ident, f.refExpr)) s =
      (refFields p (post.map (Field.meaning ι (controllers fs))) ls s).bind fun rs => pure ((post.zip rs).map fun x => (x.1.ident, ty x.1, x.2)) := by
  intro post
  induction post with
  | nil => intro pre dls ls s _ _; rfl
  | cons f post ih =>
    intro pre dls ls s hfs hd
    have hf : f ∈ fs := by rw [hfs]; simp
    have hfs' : fs = (pre ++ [f]) ++ post := by rw [hfs]; simp
    obtain ⟨g, hg, hgt⟩ := hdecl f hf
    have hdr : (f.kind = .normal ∨ f.kind = .controlsLayout) → (∀ ls, refFields p (f.meaning ι (controllers fs) :: post.map (Field.meaning ι (controllers fs))) ls = do
          mkRef (p.add (ι.off f.ident)) (ι.rty f.ty).size (ι.rty f.ty).align
          let r ← refFields p (post.map (Field.meaning ι (controllers fs))) ls
          pure (.val (p.add (ι.off f.ident)) :: r)) →
        Macro.evalRefs ι o p (.fields size (dls ++ ls)) decl ((f :: post).map fun f => (f.ident, f.refExpr)) s =
      (refFields p ((f :: post).map (Field.meaning ι (controllers fs))) ls s).bind fun rs => pure (((f :: post).zip rs).map fun x => (x.1.ident, ty x.1, x.2)) := by
      intro hk he
      have e : f.refExpr = .self f.ident := by rcases hk with hk | hk <;> simp [Field.refExpr, Field.isArr, Field.isVarlen, hk]
      simp only [List.map_cons, Macro.evalRefs, hg, e, evalRef, c.plainTy ι hf hk, bind_apply, he, Res.bind_assoc]
      cases mkRef (p.add (ι.off f.ident)) (ι.rty f.ty).size (ι.rty f.ty).align s with
      | panic m s' => rfl
      | ub k => rfl
      | ok _ s' =>
        have ih := ih (pre ++ [f]) dls ls s' hfs' (by rcases hk with hk | hk <;> simp [Field.tail, hk, hd])
        simp only [Res.bind_ok, pure_apply, bind_apply, ih, Res.bind_assoc, hgt]
        rfl
    cases hk : f.kind with
    | normal => exact hdr (Or.inl hk) fun ls => by rw [meaning_normal ι _ hk]; rfl
    | controlsLayout => exact hdr (Or.inr hk) fun ls => by rw [meaning_length ι _ hk]; rfl
    | varlen =>
      have ht : f.tail = true := by simp [Field.tail, hk]
      have ha : f.isArr = false := by simp [Field.isArr, hk]
      have e : f.refExpr = .field f.ident := by simp [Field.refExpr, Field.isArr, Field.isVarlen, hk]
      obtain ⟨h1, h2⟩ := c.layoutField_head (size := size) (ls := ls) hfs ht hd
      simp only [List.map_cons, Macro.evalRefs, hg, e, evalRef, meaning_varlen ι _ hk, hgt]
      cases ls with
      | nil =>
        rw [(h1 rfl).1]
        rcases hty1 f hk with h | h <;> rw [h] <;> rfl
      | cons ol ls =>
        obtain ⟨off, l⟩ := ol
        obtain ⟨h3, h4⟩ := h2 off l ls rfl
        rw [h3]
        rcases hty1 f hk with h | h
        all_goals
          rw [h]
          simp only [refFields, bind_apply, Res.bind_assoc]
          cases refField (ι.vty f.ty) p off s with
          | panic m s' => rfl
          | ub k => rfl
          | ok q s' =>
            have ih := ih (pre ++ [f]) (dls ++ [(off, l)]) ls s' hfs' (by simp [ht, hd])
            rw [List.append_assoc, List.singleton_append] at ih
            simp only [Res.bind_ok, pure_apply, bind_apply, ih, Res.bind_assoc]
            rw [← h]
            rfl
    | varlenArray =>
      have ht : f.tail = true := by simp [Field.tail, hk]
      have ha : f.isArr = true := by simp [Field.isArr, hk]
      have e : f.refExpr = .array f.ident f.layoutIdent := by simp [Field.refExpr, Field.isArr, hk, Field.layoutIdent]
      obtain ⟨h1, h2⟩ := c.layoutField_head (size := size) (ls := ls) hfs ht hd
      simp only [List.map_cons, Macro.evalRefs, hg, e, evalRef, meaning_array ι _ hk (c.acc f hf), hgt]
      cases ls with
      | nil =>
        rw [(h1 rfl).1]
        rcases hty2 f hf hk with h | h <;> rw [h] <;> rfl
      | cons ol ls =>
        obtain ⟨off, l⟩ := ol
        obtain ⟨h3, h4⟩ := h2 off l ls rfl
        rw [h3, h4]
        simp only [ha, if_true]
        rcases hty2 f hf hk with h | h
        all_goals
          rw [h]
          cases l with
          | len n =>
            simp only [refFields, bind_apply, Res.bind_assoc]
            cases refArray (ι.rty f.ty.elem) p off n s with
            | panic m s' => rfl
            | ub k => rfl
            | ok q s' =>
              have ih := ih (pre ++ [f]) (dls ++ [(off, .len n)]) ls s' hfs' (by simp [ht, hd])
              rw [List.append_assoc, List.singleton_append] at ih
              simp only [Res.bind_ok, pure_apply, bind_apply, ih, Res.bind_assoc]
              rw [← h]
              rfl
          | _ => rfl

theorem declLookup {fs : List Field} (hn : (fs.map Field.ident).Nodup) {vis : Field → SimpleVisibility} {ty : Field → GenTy} {f : Field} (hf : f ∈ fs) :
    ∃ g, (fs.map fun f => (⟨f.otherAttrs, vis f, f.ident, ty f⟩ : GenField)).find? (fun g => g.ident == f.ident) = some g ∧ g.ty = ty f := by
  have hm : (⟨f.otherAttrs, vis f, f.ident, ty f⟩ : GenField) ∈ fs.map fun f => (⟨f.otherAttrs, vis f, f.ident, ty f⟩ : GenField) := List.mem_map.2 ⟨f, hf, rfl⟩
  exact ⟨_, find?_map_key GenField.ident _ _ (by simpa [List.map_map, Function.comp_def] using hn) hm, rfl⟩

theorem Ctx.genRefs (c : Ctx camel snake d fs o) (ι : Meaning w) (p : Ptr) :
    genRefs ι o p = (do
      let rs ← aggRefs ι.headSize (meaning ι fs) p
      pure ((fs.zip rs).map fun x => (x.1.ident, x.1.refTy, x.2))) := by
  funext s
  have e1 : o.refs = fs.map fun f => ⟨f.otherAttrs, (visOf f.vis).2, f.ident, f.refTy⟩ := by rw [c.eq]; rfl
  have e2 : o.refLit = fs.map fun f => (f.ident, f.refExpr) := by rw [c.eq]; rfl
  simp only [Macro.genRefs, e1, e2, c.genCalc, bind_apply, aggRefs, Res.bind_assoc]
  cases hc : aggCalc ι.headSize (meaning ι fs) p s with
  | panic m s' => rfl
  | ub k => rfl
  | ok l s' =>
    have hl : ∃ size ls, l = .fields size ls := by
      simp only [aggCalc, bind_apply] at hc
      cases h1 : readLengths p (meaning ι fs) s with
      | panic m s' => simp [h1] at hc
      | ub k => simp [h1] at hc
      | ok lens s1 =>
        simp only [h1, Res.bind_ok, bind_apply] at hc
        cases h2 : catFieldsFast p lens (meaning ι fs) (BitVec.ofNat w ι.headSize) s1 with
        | panic m s' => simp [h2] at hc
        | ub k => simp [h2] at hc
        | ok r s2 =>
          simp only [h2, Res.bind_ok, pure_apply, Res.ok.injEq] at hc
          exact ⟨_, _, hc.1.symm⟩
    obtain ⟨size, ls, rfl⟩ := hl
    have h := c.evalRefs ι p size (fun f hf => declLookup (vis := fun f => (visOf f.vis).2) (ty := Field.refTy) c.nodup hf)
      (fun f hk => Or.inl (by simp [Field.refTy, hk]))
      (fun f hf hk => Or.inl (by obtain ⟨e, n, ht⟩ := (c.acc f hf).array hk; simp [Field.refTy, hk, ht, Ty.elem])) fs [] [] ls s' rfl rfl
    rw [List.nil_append] at h
    simp only [Res.bind_ok, h, meaning, bind_apply]

theorem Ctx.genMuts (c : Ctx camel snake d fs o) (ι : Meaning w) (p : Ptr) :
    genMuts ι o p = (do
      let rs ← aggRefs ι.headSize (meaning ι fs) p
      pure ((fs.zip rs).map fun x => (x.1.ident, x.1.mutTy, x.2))) := by
  funext s
  have e1 : o.muts = fs.map fun f => ⟨f.otherAttrs, (visOf f.vis).2, f.ident, f.mutTy⟩ := by rw [c.eq]; rfl
  have e2 : o.mutLit = fs.map fun f => (f.ident, f.refExpr) := by rw [c.eq]; rfl
  simp only [Macro.genMuts, e1, e2, c.genCalc, bind_apply, aggRefs, Res.bind_assoc]
  cases hc : aggCalc ι.headSize (meaning ι fs) p s with
  | panic m s' => rfl
  | ub k => rfl
  | ok l s' =>
    have hl : ∃ size ls, l = .fields size ls := by
      simp only [aggCalc, bind_apply] at hc
      cases h1 : readLengths p (meaning ι fs) s with
      | panic m s' => simp [h1] at hc
      | ub k => simp [h1] at hc
      | ok lens s1 =>
        simp only [h1, Res.bind_ok, bind_apply] at hc
        cases h2 : catFieldsFast p lens (meaning ι fs) (BitVec.ofNat w ι.headSize) s1 with
        | panic m s' => simp [h2] at hc
        | ub k => simp [h2] at hc
        | ok r s2 =>
          simp only [h2, Res.bind_ok, pure_apply, Res.ok.injEq] at hc
          exact ⟨_, _, hc.1.symm⟩
    obtain ⟨size, ls, rfl⟩ := hl
    have h := c.evalRefs ι p size (fun f hf => declLookup (vis := fun f => (visOf f.vis).2) (ty := Field.mutTy) c.nodup hf)
      (fun f hk => Or.inr (by simp [Field.mutTy, hk]))
      (fun f hf hk => Or.inr (by obtain ⟨e, n, ht⟩ := (c.acc f hf).array hk; simp [Field.mutTy, hk, ht, Ty.elem])) fs [] [] ls s' rfl rfl
    rw [List.nil_append] at h
    simp only [Res.bind_ok, h, meaning, bind_apply]

/-! ## `try_set_layout_controllers` -/

theorem Ctx.sameLens (c : Ctx camel snake d fs o) (ι : Meaning w) (before after : List Img) : ∀ (sub : List Field), (∀ f ∈ sub, f ∈ fs) →
    sameLens ι o before after ((sub.filter Field.isArr).map fun f => mkLenIdent f.ident) =
      Varlen.sameLens before after (sub.map (Field.meaning ι (controllers fs))) := by
  intro sub
  induction sub with
  | nil => intro _; rfl
  | cons f sub ih =>
    intro h
    have ih := ih fun g hg => h g (by simp [hg])
    have hf := h f (by simp)
    cases hk : f.kind with
    | normal => simpa [Field.isArr, hk, meaning_normal ι _ hk, Varlen.sameLens] using ih
    | controlsLayout => simpa [Field.isArr, hk, meaning_length ι _ hk, Varlen.sameLens] using ih
    | varlen => simpa [Field.isArr, hk, meaning_varlen ι _ hk, Varlen.sameLens] using ih
    | varlenArray =>
      have ha : f.isArr = true := by simp [Field.isArr, hk]
      simp only [ha, List.filter_cons_of_pos, List.map_cons, Macro.sameLens, c.callLen ι hf hk, ih, meaning_array ι _ hk (c.acc f hf), Varlen.sameLens]

theorem Ctx.assignFields (c : Ctx camel snake d fs o) (ι : Meaning w) (ctl : List Ident) (p : Ptr) (new : Ident → Img) : ∀ (sub : List Field), (∀ f ∈ sub, f ∈ fs) →
    assignFields ι o p new ((sub.filter Field.ctl).map Field.ident) = setLengths p (sub.map (Field.meaning ι ctl)) (((sub.filter Field.ctl).map Field.ident).map new) := by
  intro sub
  induction sub with
  | nil => intro _; rfl
  | cons f sub ih =>
    intro h
    have ih := ih fun g hg => h g (by simp [hg])
    have hf := h f (by simp)
    cases hk : f.kind with
    | normal => simpa [Field.ctl, hk, meaning_normal ι ctl hk, setLengths] using ih
    | controlsLayout =>
      simp only [List.map_cons, meaning_length ι ctl hk, setLengths, Field.ctl, hk, beq_self_eq_true, List.filter_cons_of_pos, Macro.assignFields,
        c.plainTy ι hf (Or.inr hk)]
      rw [ih]
    | varlen => simpa [Field.ctl, hk, meaning_varlen ι ctl hk, setLengths] using ih
    | varlenArray => simpa [Field.ctl, hk, meaning_array ι ctl hk (c.acc f hf), setLengths] using ih

theorem emit_nil : (emit [] : M Unit) = pure () := by
  funext s
  simp [pure_apply, St.logged]

theorem emit_append (xs ys : List Event) : (do emit xs; emit ys : M Unit) = emit (xs ++ ys) := by
  funext s
  simp [bind_apply, St.logged]

theorem Ctx.dropControllers (c : Ctx camel snake d fs o) (ι : Meaning w) (ctl : List Ident) (new : Ident → Img) : ∀ (sub : List Field), (∀ f ∈ sub, f ∈ fs) →
    dropControllers ι new ((sub.filter Field.ctl).map fun f => ⟨f.otherAttrs, (visOf f.vis).2, f.ident, .plain f.ty⟩) =
      emit (controllerDrops (sub.map (Field.meaning ι ctl)) (((sub.filter Field.ctl).map Field.ident).map new)) := by
  intro sub
  induction sub with
  | nil => intro _; exact emit_nil.symm
  | cons f sub ih =>
    intro h
    have ih := ih fun g hg => h g (by simp [hg])
    have hf := h f (by simp)
    cases hk : f.kind with
    | normal => simpa [Field.ctl, hk, meaning_normal ι ctl hk, controllerDrops] using ih
    | controlsLayout =>
      have hc : f.ctl = true := by simp [Field.ctl, hk]
      simp only [List.map_cons, meaning_length ι ctl hk, controllerDrops, hc, List.filter_cons_of_pos, Macro.dropControllers, ih]
      exact emit_append _ _
    | varlen => simpa [Field.ctl, hk, meaning_varlen ι ctl hk, controllerDrops] using ih
    | varlenArray => simpa [Field.ctl, hk, meaning_array ι ctl hk (c.acc f hf), controllerDrops] using ih

theorem Ctx.genTrySet (c : Ctx camel snake d fs o) (ι : Meaning w) (p : Ptr) (new : Ident → Img) :
    genTrySet ι o p new = trySetLayoutControllers (meaning ι fs) p ((controllers fs).map new) := by
  funext s
  have e1 : o.setFields = (fs.filter Field.ctl).map Field.ident := by rw [c.eq]; rfl
  have e2 : o.setLens = (fs.filter Field.isArr).map fun f => mkLenIdent f.ident := by rw [c.eq]; rfl
  have e3 : o.layoutControllers = (fs.filter Field.ctl).map fun f => ⟨f.otherAttrs, (visOf f.vis).2, f.ident, .plain f.ty⟩ := by rw [c.eq]; rfl
  simp only [Macro.genTrySet, trySetLayoutControllers, bind_apply, e1, e2, e3, meaning]
  rw [c.readFields ι (controllers fs) p fs fun _ h => h]
  cases readLengths p (fs.map (Field.meaning ι (controllers fs))) s with
  | panic m s' => rfl
  | ub k => rfl
  | ok before s' =>
    simp only [Res.bind_ok]
    rw [c.sameLens ι before _ fs fun _ h => h, c.assignFields ι (controllers fs) p new fs fun _ h => h, c.dropControllers ι (controllers fs) new fs fun _ h => h]
    rw [ctl_eq]

theorem Ctx.genSize (c : Ctx camel snake d fs o) (size : BitVec w) (ls : List (BitVec w × Layout w)) : genSize o (.fields size ls) = some size := by
  have e2 : o.varLenLayout = ⟨[], .Super, "size", .usize⟩ :: layFieldsOf fs := by rw [c.eq]; rfl
  simp [Macro.genSize, layoutField, e2]

end Varlen.Macro
