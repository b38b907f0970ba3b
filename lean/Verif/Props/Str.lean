import Verif.Props.Arrays
import Verif.Proofs.StrAssign
/-! # C09: strings -/
namespace Varlen
variable {w : Nat}

/-- The `Str` at `p` dereferences (without undefined behaviour) to the text `t`. -/
def StrReads (w : Nat) (L : LenTy) (s : St) (p : Ptr) (t : String) : Prop :=
  ∃ sl, Str.deref w L p s = .ok sl s ∧ sl.len = t.utf8ByteSize ∧ Slice.read u8Ty sl s = .ok (strBytes t) s

theorem Valid.strReads {L : LenTy} (hw : 1 < w) (hL : L.Ok w) {s : St} {p : Ptr} {t : String} {l : Layout w} (h : Valid (Str w L) s p (.arr (strBytes t)) l) :
    StrReads w L s p t := by
  obtain ⟨sl, str, hv, h1, h2, h3, _⟩ := Str.deref_spec hw hL h
  injection hv with hv
  cases strBytes_inj hv
  exact ⟨sl, h1, h2, h3⟩

/-- `Str::try_copy(t)` is `None` iff the byte length does not fit the length type; otherwise, constructed in any suitable storage, it reads back as exactly `t`. -/
theorem C09_tryCopy {L : LenTy} (hw : 1 < w) (hL : L.Ok w) {src : Ptr} {t : String} (hlen : t.utf8ByteSize < 2 ^ w) :
    (Str.tryCopy w L src t = none ↔ 2 ^ (8 * L.bytes) ≤ t.utf8ByteSize) ∧
    ∀ I, Str.tryCopy w L src t = some I → ∀ (s : St) (p : Ptr) (l : Layout w), SliceHas u8Ty s src (strBytes t) → I.cautious s = .ok (some l) s →
      Acc s p l.size.toNat → Aligned s p (Str w L).ALIGN.toNat → p.blk ≠ src.blk →
      ∃ s', I.initTo p l s = .ok () s' ∧ StrReads w L s' p t ∧ Valid (Str w L) s' p (.arr (strBytes t)) l ∧ Touch s s' p l.size.toNat (fun _ => False) := by
  obtain ⟨h1, h2⟩ := Str.tryCopy_spec hw hL (src := src) hlen
  refine ⟨h1, fun I hI s p l hsl hl ha hal hb => ?_⟩
  obtain ⟨hIl, hv, hpre, hfp, hown⟩ := h2 I hI
  have hs : Suitable (Str w L) I s p l := ⟨(hpre s).2 hsl, hl, ha, hal, fun h => hb ((hfp _).1 h)⟩
  rcases hs.run hIl with ⟨v, s', ev, e, ht, _, hval, _⟩ | ⟨m, s', ev, _⟩
  · rw [hv] at ev; cases ev
    exact ⟨s', e, hval.strReads hw hL, hval, ht.mono (.inr ⟨rfl, by omega, by omega⟩) fun b h => hown b (hIl.owns_mods b h)⟩
  · rw [hv] at ev; cases ev

/-- `Str::copy` (length type `usize`) never rejects. -/
theorem C09_copy_never_rejects {usizeAlign : Nat} {src : Ptr} {t : String} (s : St) :
    ∃ I, Str.copy w usizeAlign src t s = .ok I s ∧ Str.tryCopy w (.usize w usizeAlign) src t = some I := by
  cases e : Str.tryCopy w (.usize w usizeAlign) src t with
  | none => simp [Str.tryCopy, Array.tryCopy, LenTy.fromUsize, LenTy.usize] at e
  | some I => exact ⟨I, by simp [Str.copy, e], rfl⟩

/-- However a `Str` was constructed (`copy`, clone, copy of another, out of a box, …), dereferencing it is defined and gives some UTF-8 text. -/
theorem C09_always_utf8 {L : LenTy} (hw : 1 < w) (hL : L.Ok w) {I : Init w} (h : LibInit (Str w L) I) {s s' : St} {p : Ptr} {l : Layout w}
    (hs : Suitable (Str w L) I s p l) (hi : I.initTo p l s = .ok () s') : ∃ t, StrReads w L s' p t := by
  obtain ⟨_, hI⟩ := h.lib
  rcases hs.run hI with ⟨v, s1, _, e, _, _, hv, _⟩ | ⟨m, s1, _, e, _⟩
  · rw [hi] at e; cases e
    obtain ⟨sl, str, rfl, _⟩ := Str.deref_spec hw hL hv
    exact ⟨str, hv.strReads hw hL⟩
  · rw [hi] at e; cases e

/-- Cloning a `Str` that reads as `t` gives an initializer that constructs a `Str` reading as `t`; the original still reads as `t`. -/
theorem C09_clone {L : LenTy} (hw : 1 < w) (hL : L.Ok w) {s : St} {p : Ptr} {t : String} {l : Layout w} (h : Valid (Str w L) s p (.arr (strBytes t)) l)
    (hb : s.blk p.blk ≠ none) :
    ∃ I, (Str.vclone w L).vclone p (.arr (strBytes t)) s = .ok I s ∧ I.cautious s = .ok (some l) s ∧
      ∀ d, Acc s d l.size.toNat → Aligned s d (Str w L).ALIGN.toNat → d.blk ≠ p.blk →
        ∃ s', I.initTo d l s = .ok () s' ∧ StrReads w L s' d t ∧ StrReads w L s' p t := by
  obtain ⟨I, e, hI, hpre, hlay, hown, hfp, hval, _⟩ := (Str.vclone_lawful hw hL).ok s p _ l h hb
  have hl := hI.calc_some hpre hlay
  refine ⟨I, e, hl, fun d ha hal hd => ?_⟩
  have hv : I.val = some (.arr (strBytes t)) := by
    rw [hval]
    simp [Str.vclone, Newtype.vclone, Array.vcloneI, cloneAll_some]
  have hs : Suitable (Str w L) I s d l := ⟨hpre, hl, ha, hal, fun h => hd (hfp _ h)⟩
  rcases hs.run hI with ⟨v, s', ev, e, ht, _, hval, _⟩ | ⟨m, s', ev, _⟩
  · rw [hv] at ev; cases ev
    exact ⟨s', e, hval.strReads hw hL, (h.of_touch (Str.lawful hw hL) ht (fun h => hown _ (hI.owns_mods _ h)) (.inl fun h => hd h.symm)).strReads hw hL⟩
  · rw [hv] at ev; cases ev

/-- Through `mut_slice()` only text of the same byte length can be stored; the `Str` then reads as that text, with the same layout. -/
theorem C09_mut_slice {L : LenTy} (hw : 1 < w) (hL : L.Ok w) {s : St} {p : Ptr} {old new : String} {l : Layout w}
    (h : Valid (Str w L) s p (.arr (strBytes old)) l) (hn : new.utf8ByteSize = old.utf8ByteSize) :
    ∃ s', Str.assign w L p new s = .ok () s' ∧ StrReads w L s' p new ∧ (Str w L).calculateLayout p s' = .ok l s' ∧ Touch s s' p l.size.toNat (fun _ => False) := by
  obtain ⟨s', e, hv, ht, _⟩ := (Str.assign_spec hw hL h).1 hn
  exact ⟨s', e, hv.strReads hw hL, (Str.lawful hw hL).calc_ok _ _ _ _ hv, ht⟩

namespace Demo

/-- The bytes of "héllo" in a block, and a free block. -/
def stStr : St := ⟨[⟨4096, 6, 1, true, fun i => (strBytes "héllo").flatten.getD i none⟩, ⟨8192, 64, 8, true, fun _ => none⟩], [], 0⟩

theorem stStr_has : SliceHas u8Ty stStr ⟨1, 0⟩ (strBytes "héllo") := ⟨by decide +kernel, by decide +kernel, by decide +kernel, by decide +kernel, by decide +kernel⟩

theorem str_valid : ∃ s l, s.blk 2 ≠ none ∧ Valid (Str 64 lenU8) s ⟨2, 0⟩ (.arr (strBytes "héllo")) l ∧ StrReads 64 lenU8 s ⟨2, 0⟩ "héllo" := by
  obtain ⟨h1, h2⟩ := C09_tryCopy (w := 64) (L := lenU8) (by decide) lenU8_ok (src := ⟨1, 0⟩) (t := "héllo") (by decide +kernel)
  cases e : Str.tryCopy 64 lenU8 ⟨1, 0⟩ "héllo" with
  | none => exact absurd (h1.1 e) (by decide +kernel)
  | some I =>
    have hlay : I.cautious stStr = .ok (some (.array 1 6 7)) stStr := by
      have : I = Newtype.init (SizedInit 64 u8Ty lenU8 (encLE 1 6) (CopyFrom u8Ty ⟨1, 0⟩ (strBytes "héllo"))) := by
        have h6 : (strBytes "héllo").length = 6 := by decide +kernel
        simp only [Str.tryCopy, Array.tryCopy, h6] at e
        exact (Option.some.inj e).symm
      rw [this]
      rfl
    obtain ⟨s', e1, e2, e3, e4⟩ := h2 I e stStr ⟨2, 0⟩ (.array 1 6 7) stStr_has hlay (by decide) (by decide +kernel) (by decide)
    refine ⟨s', _, ?_, e3, e2⟩
    intro hn
    exact absurd ((e4.none (b := 2)).1 hn) (by decide +kernel)

example : ∃ s l, Valid (Str 64 lenU8) s ⟨2, 0⟩ (.arr (strBytes "héllo")) l ∧ s.blk 2 ≠ none ∧ "HÉLLO".utf8ByteSize = "héllo".utf8ByteSize :=
  let ⟨s, l, h, hv, _⟩ := str_valid
  ⟨s, l, hv, h, by decide +kernel⟩

end Demo

end Varlen
