import Verif.Spec.Clone
import Verif.Proofs.LibType
/-! # The ghost clone values agree with the specification `ClonedBy` -/
namespace Varlen
variable {w : Nat}

theorem cloneAll_iff {c : CloneFn} : ∀ (as bs : List Img), cloneAll c as = some bs ↔
    bs.length = as.length ∧ ∀ (i : Nat) a b, as[i]? = some a → bs[i]? = some b → c a = some b
  | [], bs => by
    cases bs <;> simp [cloneAll]
  | a :: as, bs => by
    cases bs with
    | nil => cases e : c a <;> simp [cloneAll, e]
    | cons b bs =>
      have ih := cloneAll_iff (c := c) as bs
      constructor
      · intro h
        cases e : c a with
        | none => simp [cloneAll, e] at h
        | some y =>
          cases e2 : cloneAll c as with
          | none => simp [cloneAll, e, e2] at h
          | some ys =>
            simp only [cloneAll, e, e2, Option.bind_some, Option.map_some, Option.some.injEq, List.cons.injEq] at h
            obtain ⟨rfl, rfl⟩ := h
            obtain ⟨h1, h2⟩ := ih.1 e2
            refine ⟨by simp [h1], ?_⟩
            intro i a' b' ha hb
            cases i with
            | zero => simp at ha hb; subst ha hb; exact e
            | succ i => exact h2 i a' b' (by simpa using ha) (by simpa using hb)
      · rintro ⟨h1, h2⟩
        have e := h2 0 a b rfl rfl
        have e2 := ih.2 ⟨by simpa using h1, fun i a' b' ha hb => h2 (i + 1) a' b' (by simpa using ha) (by simpa using hb)⟩
        simp [cloneAll, e, e2]

theorem cloneVs_iff : ∀ (ts : List (VarLen w × VClone w)) (vs vs' : List V), cloneVs ts vs = some vs' ↔
    vs.length = ts.length ∧ vs'.length = ts.length ∧
    ∀ (i : Nat) t v v', ts[i]? = some t → vs[i]? = some v → vs'[i]? = some v' → t.2.cloneV v = some v'
  | [], vs, vs' => by
    cases vs <;> cases vs' <;> simp [cloneVs]
  | t :: ts, vs, vs' => by
    obtain ⟨T, C⟩ := t
    cases vs with
    | nil => simp [cloneVs]
    | cons v vs =>
      cases vs' with
      | nil => cases e : C.cloneV v <;> simp [cloneVs, e]
      | cons v' vs' =>
        have ih := cloneVs_iff ts vs vs'
        constructor
        · intro h
          cases e : C.cloneV v with
          | none => simp [cloneVs, e] at h
          | some y =>
            cases e2 : cloneVs ts vs with
            | none => simp [cloneVs, e, e2] at h
            | some ys =>
              simp only [cloneVs, e, e2, Option.bind_some, Option.map_some, Option.some.injEq, List.cons.injEq] at h
              obtain ⟨rfl, rfl⟩ := h
              obtain ⟨h0, h1, h2⟩ := ih.1 e2
              refine ⟨by simp [h0], by simp [h1], ?_⟩
              intro i t x x' ht hx hx'
              cases i with
              | zero => simp at ht hx hx'; subst ht hx hx'; exact e
              | succ i => exact h2 i t x x' (by simpa using ht) (by simpa using hx) (by simpa using hx')
        · rintro ⟨h0, h1, h2⟩
          have e : C.cloneV v = some v' := h2 0 (T, C) v v' rfl rfl rfl
          have e2 := ih.2 ⟨by simpa using h0, by simpa using h1,
            fun i t x x' ht hx hx' => h2 (i + 1) t x x' (by simpa using ht) (by simpa using hx) (by simpa using hx')⟩
          simp [cloneVs, e, e2]

theorem ClonedBy.cloneV {T : VarLen w} {C : VClone w} {v v' : V} (h : ClonedBy T C v v') : C.cloneV v = some v' := by
  induction h with
  | fixedLen h => simp [FixedLen.vclone, h]
  | array h1 h2 => simp [Array.vcloneI, (cloneAll_iff _ _).2 ⟨h1, h2⟩]
  | str => simp [Str.vclone, Newtype.vclone, Array.vcloneI, cloneAll_some]
  | newtype _ ih => exact ih
  | tuple h0 h1 _ ih => simp [Tuple.vclone, (cloneVs_iff _ _ _).2 ⟨h0, h1, ih⟩]
  | user _ h => exact h

theorem LibClone.clonedBy {T : VarLen w} {C : VClone w} (h : LibClone T C) : ∀ v v', C.cloneV v = some v' → ClonedBy T C v v' := by
  induction h with
  | @fixedLen R c hR hc =>
    intro v v' e
    cases v <;> simp [FixedLen.vclone] at e
    obtain ⟨b, e, rfl⟩ := e
    exact .fixedLen e
  | @array R L c hR hL hc =>
    intro v v' e
    cases v <;> simp [Array.vcloneI] at e
    obtain ⟨bs, e, rfl⟩ := e
    obtain ⟨h1, h2⟩ := (cloneAll_iff _ _).1 e
    exact .array h1 h2
  | str =>
    intro v v' e
    cases v <;> simp [Str.vclone, Newtype.vclone, Array.vcloneI, cloneAll_some] at e
    subst e
    exact .str
  | newtype _ ih =>
    intro v v' e
    exact .newtype (ih v v' e)
  | tuple _ _ ih =>
    intro v v' e
    cases v <;> simp [Tuple.vclone] at e
    obtain ⟨vs', e, rfl⟩ := e
    obtain ⟨h0, h1, h2⟩ := (cloneVs_iff _ _ _).1 e
    exact .tuple h0 h1 fun i t x x' ht hx hx' => ih t (List.mem_of_getElem? ht) x x' (h2 i t x x' ht hx hx')
  | user _ hC =>
    intro v v' e
    exact .user hC e

theorem PlainClone.lib {T : VarLen w} {C : VClone w} (h : PlainClone T C) : LibClone T C := by
  induction h with
  | fixedLen hR hc => exact .fixedLen hR fun a b ha e => by rw [hc a ha] at e; cases e; exact ha
  | array hR hL hc => exact .array hR hL fun a b ha e => by rw [hc a ha] at e; cases e; exact ha
  | str hw hL => exact .str hw hL
  | newtype _ ih => exact .newtype ih
  | tuple hne _ ih => exact .tuple hne ih

theorem repTails_varlen {lens : List Img} {o : View} : ∀ (ts : List (VarLen w)) vs ls cur fin, RepTails lens (ts.map Fld.varlen) vs ls cur fin o →
    vs.length = ts.length ∧ ∀ (i : Nat) T v, ts[i]? = some T → vs[i]? = some v → ∃ l off, T.Rep v l (shift off o)
  | [], vs, ls, cur, fin, h => by
    cases vs with
    | nil => simp
    | cons => simp [RepTails] at h
  | T :: ts, vs, ls, cur, fin, h => by
    cases vs with
    | nil => simp [RepTails] at h
    | cons v vs =>
      cases ls with
      | nil => simp [RepTails] at h
      | cons x ls =>
        obtain ⟨off, l⟩ := x
        obtain ⟨h1, h2⟩ := h
        obtain ⟨ih1, ih2⟩ := repTails_varlen ts vs ls _ fin h2
        refine ⟨by simp [ih1], ?_⟩
        intro i T' v' hT hv
        cases i with
        | zero => simp at hT hv; subst hT hv; exact ⟨l, _, h1.2⟩
        | succ i => exact ih2 i T' v' (by simpa using hT) (by simpa using hv)

theorem PlainClone.self {T : VarLen w} {C : VClone w} (h : PlainClone T C) : ∀ v l o, T.Rep v l o → C.cloneV v = some v := by
  induction h with
  | fixedLen hR hc =>
    rintro v l o ⟨img, rfl, _, _, hv⟩
    simp [FixedLen.vclone, hc img hv]
  | array hR hL hc =>
    rintro v l o ⟨off, n, size, xs, rfl, _, _, _, _, _, _, hv⟩
    simp only [Array.vcloneI]
    rw [(cloneAll_iff xs xs).2 ⟨rfl, fun i a b ha hb => by rw [ha] at hb; cases hb; exact hc a (hv a (List.mem_of_getElem? ha))⟩]
    rfl
  | str hw hL =>
    rintro v l o ⟨⟨off, n, size, xs, rfl, _⟩, _⟩
    simp [Str.vclone, Newtype.vclone, Array.vcloneI, cloneAll_some]
  | newtype _ ih =>
    rintro v l o ⟨h, _⟩
    exact ih v l o h
  | @tuple ts hne _ ih =>
    rintro v l o ⟨vs, ls, size, rfl, rfl, _, ht⟩
    obtain ⟨h1, h2⟩ := repTails_varlen (ts.map (·.1)) vs ls _ _ (by simpa using ht)
    simp only [Tuple.vclone]
    rw [(cloneVs_iff ts vs vs).2 ⟨by simpa using h1, by simpa using h1, ?_⟩]
    · rfl
    · intro i t v v' ht hv hv'
      rw [hv] at hv'
      cases hv'
      obtain ⟨l, off, hr⟩ := h2 i t.1 v (by simp [ht]) hv
      exact ih t (List.mem_of_getElem? ht) v l _ hr

end Varlen
