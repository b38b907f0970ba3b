import Verif.Spec.NoDrop
import Verif.Proofs.LibType
/-! # `vdrop` of a type without anything to drop does nothing -/
namespace Varlen
variable {w : Nat}

theorem dropInPlace_noop {R : RTy} (h : R.needsDrop = false) {s : St} {p : Ptr} (ha : Aligned s p R.align) : dropInPlace R p s = .ok () s := by
  simp [dropInPlace, checkAlign_ok ha, h]

theorem dropElems_noop {R : RTy} (hR : R.Ok w) (h : R.needsDrop = false) {s : St} : ∀ (n : Nat) (p : Ptr), Aligned s p R.align → dropElems R p n s = .ok () s
  | 0, _, _ => rfl
  | n + 1, p, ha => by
    rw [dropElems, bind_apply, dropInPlace_noop h ha, Res.bind_ok]
    exact dropElems_noop hR h n _ (ha.add (Nat.mod_eq_zero_of_dvd hR.dvd))

theorem NoDrop.lib {T : VarLen w} (h : NoDrop T) : LibType T := by
  induction h with
  | fixedLen h _ => exact .fixedLen h
  | array h h' _ => exact .array h h'
  | str h h' => exact .str h h'
  | newtype _ ih => exact .newtype ih
  | tuple h _ ih => exact .tuple h ih
  | struct h _ _ _ _ ih => exact .struct h ih

/-- The fields are such that dropping them does nothing. -/
def Fld.Noop : Fld w → Prop
  | .normal R _ => R.needsDrop = false
  | .length R _ => R.needsDrop = false
  | .varlen T => ∀ s p v l, Valid T s p v l → T.vdrop p l s = .ok () s
  | .array R _ => R.needsDrop = false

theorem vdropFields_noop {hs ha : Nat} {lens : List Img} {p : Ptr} {fin : Nat} {s : St} (hacc : Acc s p fin) (hal : Aligned s p ha) :
    ∀ (fs : List (Fld w)) vs ls cur, (∀ f ∈ fs, f.Ok hs ha) → (∀ f ∈ fs, f.Noop) →
    (∀ a ∈ tailAligns fs, Aligned s p a.toNat) →
    RepTails lens fs vs ls cur fin (viewAt s p) → vdropFields p fs ls s = .ok () s := by
  intro fs
  induction fs with
  | nil =>
    intro vs ls cur _ _ _ h
    rfl
  | cons f fs ih =>
    intro vs ls cur hok hno halt h
    have hok' : ∀ f ∈ fs, f.Ok hs ha := fun g hg => hok g (by simp [hg])
    have hno' : ∀ f ∈ fs, f.Noop := fun g hg => hno g (by simp [hg])
    have hf := hok f (by simp)
    have hn := hno f (by simp)
    cases vs with
    | nil => cases f <;> simp [RepTails] at h
    | cons v vs =>
      cases f with
      | normal R off =>
        obtain ⟨hR, h1, h2, h3⟩ := hf
        rw [vdropFields, bind_apply, dropInPlace_noop hn ((hal.of_dvd h3).add h2), Res.bind_ok]
        exact ih vs ls cur hok' hno' halt h
      | length R off =>
        obtain ⟨hR, h1, h2, h3⟩ := hf
        rw [vdropFields, bind_apply, dropInPlace_noop hn ((hal.of_dvd h3).add h2), Res.bind_ok]
        exact ih vs ls cur hok' hno' halt h
      | varlen T =>
        rcases ls with _ | ⟨⟨o1, l⟩, ls⟩
        · simp [RepTails] at h
        simp only [RepTails] at h
        obtain ⟨⟨h1, h2⟩, h3⟩ := h
        have hle := RepTails.le _ _ _ _ _ hok' h3
        have hT : Lawful T := hf
        have hal1 : Aligned s (p.add o1.toNat) T.ALIGN.toNat :=
          (halt T.ALIGN (by simp [tailAligns])).add (by rw [h1]; exact roundUpN_mod _ _)
        have hacc1 : Acc s (p.add o1.toNat) l.size.toNat := hacc.sub (by omega)
        have hval : Valid T s (p.add o1.toNat) v l := ⟨hacc1, hal1, by rw [viewAt_add]; exact h2⟩
        have hhead := hT.head_le _ _ _ (Valid.rep hval)
        rw [vdropFields, bind_apply, vdropField, bind_apply, mkRef_ok (hacc1.mono hhead) (hal1.of_dvd hT.head_align), Res.bind_ok,
          hn _ _ _ _ hval, Res.bind_ok]
        exact ih vs ls _ hok' hno' (fun a ha => halt a (by simp [tailAligns, ha])) h3
      | array R len =>
        cases v with
        | leaf => simp [RepTails] at h
        | node => simp [RepTails] at h
        | arr xs =>
          rcases ls with _ | ⟨⟨o1, l⟩, ls⟩
          · simp [RepTails] at h
          cases l with
          | fixed => simp [RepTails] at h
          | array => simp [RepTails] at h
          | fields => simp [RepTails] at h
          | len n =>
            simp only [RepTails] at h
            obtain ⟨⟨h1, h2, _⟩, h3⟩ := h
            have hR : R.Ok w := hf
            have hal1 : Aligned s (p.add o1.toNat) R.align := by
              have := halt (R.alignOf w) (by simp [tailAligns])
              rw [hR.alignOf_toNat] at this
              exact this.add (by rw [h1]; exact roundUpN_mod _ _)
            rw [vdropFields, bind_apply, dropArray, dropElems_noop hR hn _ _ hal1, Res.bind_ok]
            exact ih vs ls _ hok' hno' (fun a ha => halt a (by simp [tailAligns, ha])) h3

theorem NoDrop.vdrop {T : VarLen w} (h : NoDrop T) : ∀ s p v l, Valid T s p v l → T.vdrop p l s = .ok () s := by
  induction h with
  | fixedLen hR hn =>
    intro s p v l hv
    have := hv.aligned
    simp only [FixedLen, hR.alignOf_toNat] at this
    exact dropInPlace_noop hn this
  | @array R L hR hL hn =>
    intro s p v l hv
    obtain ⟨off, n, size, xs, _, rfl, _, _, ho, _⟩ := Valid.rep hv
    exact dropElems_noop hR hn _ _ ((hv.aligned.of_dvd (Array.align_spec hR hL).2.2).add (by rw [ho]; exact roundUpN_mod _ _))
  | @str L hw hL =>
    intro s p v l hv
    simp [Str, NewtypeInv, Array, u8Ty]
  | @newtype T hT ih =>
    intro s p v l hv
    simp only [Newtype, NewtypeInv]
    split
    · rfl
    · exact ih _ _ _ _ (NewtypeInv.valid_inner hv)
  | @tuple Ts hne hT ih =>
    intro s p v l hv
    simp only [Tuple]
    split
    · rfl
    · obtain ⟨vs, ls, size, _, rfl, _, ht⟩ := Valid.rep hv
      have hl : ∀ T ∈ Ts, Lawful T := fun T hT' => (hT T hT').lib.lawful
      obtain ⟨A, hA⟩ := Tuple.aligns hne hl
      have hok : ∀ f ∈ Ts.map Fld.varlen, f.Ok 0 1 := by
        intro f hf
        obtain ⟨T, hT', rfl⟩ := List.mem_map.1 hf
        exact hl T hT'
      refine vdropFields_noop (hs := 0) (ha := 1) hv.acc (Aligned.one _ _) _ vs ls 0 hok ?_ ?_ ht
      · intro f hf
        obtain ⟨T, hT', rfl⟩ := List.mem_map.1 hf
        exact ih T hT'
      · intro a ha
        rw [tailAligns_map] at ha
        obtain ⟨T, hT', rfl⟩ := List.mem_map.1 ha
        exact hv.aligned.of_dvd (hA T hT')
  | @struct hs ha fs hh h1 h2 h3 h4 ih =>
    intro s p v l hv
    have hok : StructOk hs ha fs := hh.structOk fun T hT => (h4 T hT).lib.lawful
    obtain ⟨A, hA1, hA2⟩ := Struct.aligns hok
    obtain ⟨vs, ls, size, _, rfl, _, ht⟩ := Valid.rep hv
    refine vdropFields_noop (hs := hs) (ha := ha) hv.acc (hv.aligned.of_dvd hA1) _ vs ls hs hok.flds ?_ (fun a ha => hv.aligned.of_dvd (hA2 a ha)) ht
    intro f hf
    cases f with
    | normal R off => exact h1 R off hf
    | length R off => exact h2 R off hf
    | varlen T => exact ih T hf
    | array R len => exact h3 R len hf

end Varlen
