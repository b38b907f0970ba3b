import Verif.Spec.ItemIter
import Verif.Proofs.SeqExtend
/-! # `extend` over arbitrary iterators -/
namespace Varlen
variable {w : Nat} {T : VarLen w} {chk : Bool} {τ : Type} {it : ItemIter w τ}

theorem LoopEnds.cons {n : Nat} {x : List Event × Init w} {xs : List (List Event × Init w)} {t : τ} {s' : St} {q' : SeqS w} {tail : List Event} {ok : τ → St → Prop} {r}
    (h : LoopEnds it ok n xs t s' q' tail r) : LoopEnds it ok (n + 1) (x :: xs) t s' q' tail r := by
  cases h with
  | running h => exact .running (by simp [h])
  | finished h1 h2 h3 => exact .finished (by simp [h1]) h2 h3
  | nextPanics h1 h2 h3 => exact .nextPanics (by simp [h1]) h2 h3
  | pushPanics h1 h2 h3 h4 h5 => exact .pushPanics (by simp [h1]) h2 h3 h4 h5

/-- The storage of a sequence exists, unless there is none. -/
theorem Hist.ptr_exists (hT : Lawful T) (hw : 8 ≤ w) {s q h m t} (hh : Hist T chk s q h m t) : q.ptr.blk = 0 ∨ ∃ B, s.blk q.ptr.blk = some B := by
  obtain ⟨es, i⟩ := hh.inv hT hw
  by_cases h0 : q.cap.toNat = 0
  · exact .inl (by rw [i.inv.dang h0]; rfl)
  · obtain ⟨_, B, hB, _⟩ := i.inv.store.owns h0
    exact .inr ⟨B, hB⟩

theorem Hist.extendIter_spec (hT : Lawful T) (hw : 8 ≤ w) {ok : τ → St → Prop} {fp own : τ → Nat → Prop} (hL : ItemIterLawful T it ok fp own) (A : Allocator) :
    ∀ (n : Nat) {t : τ} {s : St} {q : SeqS w} {h m k}, Hist T chk s q h m k → ok t s → ¬ fp t q.ptr.blk →
    ∃ xs t1 s' q' h' m' tail, Yielded it ok t xs t1 ∧ h'.map (fun e => some e.2) = xs.map (fun x => x.2.val) ∧ Hist T chk s' q' (h ++ h') m' k ∧
      s'.log = s.log ++ xs.flatMap (fun x => x.1 ++ x.2.left) ++ tail ∧ (∀ b B, s.blk b = some B → b ≠ q.ptr.blk → ¬ own t b → s'.blk b = some B) ∧
      (∀ x ∈ xs, ∀ b, x.2.owns b → ∃ B, s'.blk b = some B ∧ B.live = false) ∧
      (q'.ptr.blk = q.ptr.blk ∨ s.blk q'.ptr.blk = none) ∧ LoopEnds it ok n xs t1 s' q' tail (Seq.extendIter A chk T it n t (s, q))
  | 0, t, s, q, h, m, k, hh, _, _ => ⟨[], t, s, q, [], m, [], .nil, rfl, by simpa using hh, by simp, fun _ _ h _ _ => h, by simp, .inl rfl, .running rfl⟩
  | n + 1, t, s, q, h, m, k, hh, hok, hap => by
    obtain ⟨o, t1, s1, ev, e1, l1, ok1, fr1, ex1, fp1, ow1, hI⟩ := hL.next t s hok
    have hp0 : ∀ b, fp t b ∨ s.blk b = none → s1.blk b ≠ none → b ≠ q.ptr.blk := by
      rintro b hb hne rfl
      rcases hb with hb | hb
      · exact hap hb
      · rcases hh.ptr_exists hT hw with h0 | ⟨B, hB⟩
        · rw [h0] at hne; exact hne rfl
        · rw [hB] at hb; cases hb
    have hh1 : Hist T chk s1 q h m k := by
      refine hh.other fun b hb => ?_
      subst hb
      rcases hh.ptr_exists hT hw with h0 | ⟨B, hB⟩
      · rw [h0]; rfl
      · rw [hB]; exact fr1 _ _ hB fun h => hap (hL.own_fp _ _ h)
    have hap1 : ¬ fp t1 q.ptr.blk := fun hb => hp0 _ (fp1 _ hb) (hL.exist t1 s1 _ ok1 hb) rfl
    have hstop : ∀ {s2 : St}, (∀ b B, s1.blk b = some B → ¬ own t1 b → s2.blk b = some B) → Hist T chk s2 q h m k ∧
        ∀ b B, s.blk b = some B → b ≠ q.ptr.blk → ¬ own t b → s2.blk b = some B := by
      intro s2 fr2
      refine ⟨hh1.other fun b hb => ?_, fun b B hB _ hf => fr2 b B (fr1 b B hB hf) fun hf' => ?_⟩
      · subst hb
        rcases hh1.ptr_exists hT hw with h0 | ⟨B, hB⟩
        · rw [h0]; rfl
        · rw [hB]; exact fr2 _ _ hB fun h => hap1 (hL.own_fp _ _ h)
      · rcases ow1 b hf' with h | h
        · exact hf h
        · rw [hB] at h; cases h
    cases o with
    | done =>
      obtain ⟨s2, ev2, e2, l2, fr2⟩ := hL.drop t1 s1 ok1
      obtain ⟨hh2, hfr⟩ := hstop fr2
      have e : Seq.extendIter A chk T it (n + 1) t (s, q) = .ok none (s2, q) := by
        simp only [Seq.extendIter, bind_apply, liftQ_apply, e1, e2, Res.bind_ok, pure_apply]
      refine ⟨[], t, s2, q, [], m, ev ++ ev2, .nil, rfl, by simpa using hh2, by rw [l2, l1]; simp, hfr, by simp, .inl rfl, ?_⟩
      rw [e]
      exact .finished (by simp) ⟨hok, e1, l1⟩ ⟨e2, l2⟩
    | panic pm =>
      obtain ⟨s2, ev2, e2, l2, fr2⟩ := hL.drop t1 s1 ok1
      obtain ⟨hh2, hfr⟩ := hstop fr2
      have e : Seq.extendIter A chk T it (n + 1) t (s, q) = .panic pm (s2, q) := by
        simp only [Seq.extendIter, bind_apply, liftQ_apply, e1, e2, Res.bind_ok]; rfl
      refine ⟨[], t, s2, q, [], m, ev ++ ev2, .nil, rfl, by simpa using hh2, by rw [l2, l1]; simp, hfr, by simp, .inl rfl, ?_⟩
      rw [e]
      exact .nextPanics (by simp) ⟨hok, e1, l1⟩ ⟨e2, l2⟩
    | item I =>
      obtain ⟨i1, i2, i3, i4, i6, i5⟩ := hI I rfl
      have hq : ¬ I.fp q.ptr.blk := fun hb => hp0 _ (i4 _ hb) (i1.fp_exists s1 _ i2 hb) rfl
      -- the iterator is not affected by the push
      have keep : ∀ {ow : Nat → Prop} {s2 q2 ev' need}, (∀ b, ow b → I.mods b) → Pushed T chk ow ev' s1 s2 q q2 need → ok t1 s2 ∧ ¬ fp t1 q2.ptr.blk ∧
          (∀ b B, s.blk b = some B → b ≠ q.ptr.blk → ¬ own t b → s2.blk b = some B ∧ b ≠ q2.ptr.blk) ∧
          ∀ b, fp t1 b → ∃ B, s2.blk b = some B := by
        intro ow s2 q2 ev' need hown hp
        have hsame : ∀ b, fp t1 b → ∃ B, s1.blk b = some B ∧ s2.blk b = some B ∧ b ≠ q2.ptr.blk := by
          intro b hb
          cases hB : s1.blk b with
          | none => exact absurd hB (hL.exist t1 s1 b ok1 hb)
          | some B =>
            have hne : b ≠ q.ptr.blk := fun h => hap1 (h ▸ hb)
            exact ⟨B, rfl, hp.frame b B hB hne fun h => i5 b (hown b h) hb, ptr_ne_of_pushed hp hB hne⟩
        refine ⟨hL.stable t1 s1 s2 ok1 fun b hb => ?_, fun hb => ?_, fun b B hB hne hf => ?_, fun b hb => ?_⟩
        · obtain ⟨B, h1, h2, _⟩ := hsame b hb
          rw [h1, h2]
        · obtain ⟨B, _, _, h3⟩ := hsame _ hb
          exact h3 rfl
        · have hB1 := fr1 b B hB hf
          refine ⟨hp.frame b B hB1 hne fun h => ?_, ptr_ne_of_pushed hp hB1 hne⟩
          rcases i6 b (hown b h) with h' | h'
          · exact hf h'
          · rw [hB] at h'; cases h'
        · obtain ⟨B, _, h2, _⟩ := hsame b hb
          exact ⟨B, h2⟩
      have hpt : ∀ {ow : Nat → Prop} {s2 q2 ev' need}, Pushed T chk ow ev' s1 s2 q q2 need → q2.ptr.blk = q.ptr.blk ∨ s.blk q2.ptr.blk = none := by
        intro ow s2 q2 ev' need hp
        by_cases hn : need ≤ q.cap.toNat
        · exact .inl (by rw [hp.ptr hn])
        · exact .inr (Classical.byContradiction fun h => absurd (hp.fresh hn) (ex1 _ h))
      have hex : ∀ {ow : Nat → Prop} {s2 q2 ev' need}, Pushed T chk ow ev' s1 s2 q q2 need → ∀ b, s1.blk b ≠ none → s2.blk b ≠ none := by
        intro ow s2 q2 ev' need hp b hb
        have hs := hp.size
        cases b with
        | zero => exact hb
        | succ b =>
          simp only [St.blk, ne_eq, List.getElem?_eq_none_iff] at hb ⊢
          split at hs <;> omega
      rcases hh1.push_cases hT hw A ⟨i1, i2, hq, i3⟩ with ⟨v, s2, q2, need, e2, hv, hh2, hp, hfr⟩ | ⟨msg, s2, q2, e2, hh2, hev, hfr⟩
      · obtain ⟨ok2, hap2, fr2, _⟩ := keep i1.owns_mods hp
        obtain ⟨xs, t3, s3, q3, h3, m3, tail, y3, v3, hh3, l3, fr3, ow3, pt3, le3⟩ := Hist.extendIter_spec hT hw hL A n hh2 ok2 hap2
        have e : Seq.extendIter A chk T it (n + 1) t (s, q) = Seq.extendIter A chk T it n t1 (s2, q2) := by
          simp only [Seq.extendIter, bind_apply, liftQ_apply, e1, Res.bind_ok, onUnwind_ok e2]
        refine ⟨(ev, I) :: xs, t3, s3, q3, (Seq.offset q, v) :: h3, m3, tail, .cons ⟨hok, e1, l1⟩ y3, by simp [v3, hv], by simpa using hh3,
          by rw [l3, hp.log, l1]; simp, fun b B hB hne hf => ?_, fun x hx b hb => ?_, ?_, ?_⟩
        · obtain ⟨hB2, hne2⟩ := fr2 b B hB hne hf
          refine fr3 b B hB2 hne2 fun hb => ?_
          rcases ow1 b hb with h | h
          · exact hf h
          · rw [hB] at h; cases h
        · rcases List.mem_cons.1 hx with rfl | hx
          · obtain ⟨B, hB, hl⟩ := hfr b hb
            refine ⟨B, fr3 b B hB ?_ (fun h => i5 b (i1.owns_mods b hb) (hL.own_fp _ _ h)), hl⟩
            have hfp := i1.owns_fp b hb
            cases hB0 : s1.blk b with
            | none => exact absurd hB0 (i1.fp_exists s1 b i2 hfp)
            | some B0 => exact ptr_ne_of_pushed hp hB0 fun h => hq (h ▸ hfp)
          · exact ow3 x hx b hb
        · rcases pt3 with h | h
          · rw [h]; exact hpt hp
          · refine .inr (Classical.byContradiction fun hn => absurd h (hex hp _ (ex1 _ hn)))
        · rw [e]; exact le3.cons
      · have hk : ok t1 s2 ∧ ¬ fp t1 q2.ptr.blk ∧ (∀ b B, s.blk b = some B → b ≠ q.ptr.blk → ¬ own t b → s2.blk b = some B ∧ b ≠ q2.ptr.blk) ∧
            ∀ b, fp t1 b → ∃ B, s2.blk b = some B := by
          rcases hev with ⟨hd, rfl⟩ | ⟨_, need, hp⟩
          · refine ⟨hL.stable t1 s1 s2 ok1 fun b hb => hd.frame b fun h => i5 b h hb, hap1, fun b B hB hne hf => ⟨?_, hne⟩, fun b hb => ?_⟩
            · rw [hd.frame b fun h => ?_]
              · exact fr1 b B hB hf
              · rcases i6 b h with h' | h'
                · exact hf h'
                · rw [hB] at h'; cases h'
            · rw [hd.frame b fun h => i5 b h hb]
              cases hB : s1.blk b with
              | none => exact absurd hB (hL.exist t1 s1 b ok1 hb)
              | some B => exact ⟨B, rfl⟩
          · exact keep (fun _ h => h) hp
        obtain ⟨ok2, hap2, fr2, _⟩ := hk
        obtain ⟨ev1, hev1, l2⟩ : ∃ ev, (ev = I.owes ∨ I.val = none ∧ ev = I.lost) ∧ s2.log = s1.log ++ ev := by
          rcases hev with ⟨hd, _⟩ | ⟨hv, need, hp⟩
          · exact ⟨_, .inl rfl, hd.log⟩
          · exact ⟨_, .inr ⟨hv, rfl⟩, hp.log⟩
        obtain ⟨s3, ev3, e3, l3, fr3⟩ := hL.drop t1 s2 ok2
        have hh3 : Hist T chk s3 q2 h (m + (s2.copied - s1.copied)) k := by
          refine hh2.other fun b hb => ?_
          subst hb
          rcases hh2.ptr_exists hT hw with h0 | ⟨B, hB⟩
          · rw [h0]; rfl
          · rw [hB]; exact fr3 _ _ hB fun h => hap2 (hL.own_fp _ _ h)
        have hu : onUnwind (Seq.push A chk T I) (liftQ (it.drop t1)) (s1, q) = .panic msg (s3, q2) :=
          onUnwind_panic e2 (by simp only [liftQ_apply, e3])
        have e : Seq.extendIter A chk T it (n + 1) t (s, q) = .panic msg (s3, q2) := by
          simp only [Seq.extendIter, bind_apply, liftQ_apply, e1, Res.bind_ok]
          simp only [hu, Res.bind_panic]
        refine ⟨[], t, s3, q2, [], _, ev ++ ev1 ++ ev3, .nil, rfl, by simpa using hh3, by rw [l3, l2, l1]; simp, fun b B hB hne hf => ?_, by simp, ?_, ?_⟩
        · refine fr3 b B (fr2 b B hB hne hf).1 fun hb => ?_
          rcases ow1 b hb with h | h
          · exact hf h
          · rw [hB] at h; cases h
        · rcases hev with ⟨_, rfl⟩ | ⟨_, need, hp⟩
          · exact .inl rfl
          · exact hpt hp
        · rw [e]
          refine .pushPanics (by simp) ⟨hok, e1, l1⟩ hev1 ⟨e3, l3⟩ fun b hb => ?_
          obtain ⟨B, hB, hl⟩ := hfr b hb
          exact ⟨B, fr3 b B hB (fun h => i5 b (i1.owns_mods b hb) (hL.own_fp _ _ h)), hl⟩

/-! ## The cut-off does not matter -/

theorem Seq.extendIter_more (A : Allocator) : ∀ (n k : Nat) (t : τ) (x : St × SeqS w), (∀ t' x', Seq.extendIter A chk T it n t x ≠ .ok (some t') x') →
    Seq.extendIter A chk T it (n + k) t x = Seq.extendIter A chk T it n t x
  | 0, k, t, x, h => absurd rfl (h t x)
  | n + 1, k, t, x, h => by
    obtain ⟨s, q⟩ := x
    rw [show n + 1 + k = n + k + 1 by omega]
    simp only [Seq.extendIter, bind_apply, liftQ_apply] at h ⊢
    generalize it.next t s = r at h ⊢
    rcases r with ⟨⟨o, t'⟩, s'⟩ | ⟨m, s'⟩ | k <;> simp only [Res.bind_ok, Res.bind_panic, Res.bind_ub] at h ⊢
    cases o <;> simp only [bind_apply] at h ⊢
    generalize onUnwind _ _ _ = r at h ⊢
    rcases r with ⟨_, x⟩ | ⟨m, s'⟩ | k <;> simp only [Res.bind_ok, Res.bind_panic, Res.bind_ub] at h ⊢
    exact Seq.extendIter_more A n _ t' x h

/-! ## Iterators over lists -/

theorem Seq.extendIter_ofList (A : Allocator) (own : Bool) : ∀ (is : List (Init w)) (x : St × SeqS w),
    Seq.extendIter A chk T (.ofList w own) (is.length + 1) is x = (Seq.extend A chk T own is x).bind fun _ x => .ok none x
  | [], (s, q) => by cases own <;> rfl
  | I :: is, (s, q) => by
    have ih := Seq.extendIter_ofList A own is
    have hd : liftQ (w := w) ((ItemIter.ofList w own).drop is) = if own then liftQ (dropInits is) else pure () := by cases own <;> rfl
    simp only [Seq.extendIter, Seq.extend, List.length_cons, bind_apply, liftQ_apply]
    simp only [ItemIter.ofList, pure_apply, Res.bind_ok, bind_apply] at ih hd ⊢
    rw [hd]
    generalize onUnwind _ _ _ = r
    rcases r with ⟨_, x⟩ | ⟨m, s'⟩ | k <;> simp only [Res.bind_ok, Res.bind_panic, Res.bind_ub]
    · exact ih x
    · rfl
    · rfl

/-- The items of the list are usable, and later ones do not borrow from what earlier ones own. -/
def ListOk (T : VarLen w) (is : List (Init w)) (s : St) : Prop :=
  (∀ I ∈ is, InitLawful T I ∧ I.pre s ∧ ∀ l, I.lay = some l → 0 < l.size.toNat) ∧ is.Pairwise fun I J => ∀ b, I.mods b → ¬ J.fp b

theorem ofList_lawful (own : Bool) : ItemIterLawful T (.ofList w own) (ListOk T) (fun is b => ∃ I ∈ is, I.fp b) (fun is b => ∃ I ∈ is, I.fp b ∧ I.mods b) where
  own_fp := fun _ _ ⟨I, hI, h, _⟩ => ⟨I, hI, h⟩
  exist := by
    rintro is s b ⟨h, _⟩ ⟨I, hI, hb⟩
    exact (h I hI).1.fp_exists s b (h I hI).2.1 hb
  stable := by
    rintro is s s' ⟨h, h'⟩ hs
    exact ⟨fun I hI => ⟨(h I hI).1, (h I hI).1.stable s s' (h I hI).2.1 fun b hb => hs b ⟨I, hI, hb⟩, (h I hI).2.2⟩, h'⟩
  next := by
    rintro is s ⟨h, h'⟩
    cases is with
    | nil => exact ⟨_, _, s, [], rfl, by simp, ⟨h, h'⟩, fun _ _ h _ => h, fun _ h => h, by simp, by simp, by simp⟩
    | cons I is =>
      obtain ⟨p1, p2⟩ := List.pairwise_cons.1 h'
      refine ⟨_, _, s, [], rfl, by simp, ⟨fun J hJ => h J (by simp [hJ]), p2⟩, fun _ _ h _ => h, fun _ h => h, ?_, ?_, ?_⟩
      · rintro b ⟨J, hJ, hb⟩; exact .inl ⟨J, by simp [hJ], hb⟩
      · rintro b ⟨J, hJ, hb⟩; exact .inl ⟨J, by simp [hJ], hb⟩
      · intro J e
        cases e
        obtain ⟨i1, i2, i3⟩ := h I (by simp)
        refine ⟨i1, i2, i3, fun b hb => .inl ⟨I, by simp, hb⟩, fun b hb => .inl ⟨I, by simp, i1.mods_fp b hb, hb⟩, ?_⟩
        rintro b hb ⟨J, hJ, hb'⟩
        exact p1 J hJ b hb hb'
  drop := by
    rintro is s ⟨h, h'⟩
    cases own with
    | false => exact ⟨s, [], rfl, by simp, fun _ _ h _ => h⟩
    | true =>
      obtain ⟨s', e, f, _, l, _⟩ := dropInits_spec is s (fun I hI => ⟨(h I hI).1, (h I hI).2.1⟩) h'
      exact ⟨s', _, e, l, fun b B hB hn => by rw [f b fun I hI hm => hn ⟨I, hI, (h I hI).1.mods_fp b hm, hm⟩, hB]⟩

/-- Closures whose items borrow nothing. -/
theorem ofFn_lawful {f : τ → ItemStep w × τ} (drops : τ → List Event) {P : τ → Prop} (hP : ∀ t, P t → P (f t).2)
    (hI : ∀ t I, P t → (f t).1 = .item I → InitLawful T I ∧ (∀ s, I.pre s) ∧ (∀ b, ¬ I.fp b) ∧ ∀ l, I.lay = some l → 0 < l.size.toNat) :
    ItemIterLawful T (.ofFn w f drops) (fun t _ => P t) (fun _ _ => False) (fun _ _ => False) where
  own_fp := fun _ _ h => h
  exist := fun _ _ _ _ h => h.elim
  stable := fun _ _ _ h _ => h
  next := by
    intro t s h
    refine ⟨(f t).1, (f t).2, s, [], rfl, by simp, hP t h, fun _ _ h _ => h, fun _ h => h, fun _ h => h.elim, fun _ h => h.elim, fun I e => ?_⟩
    obtain ⟨i1, i2, i3, i4⟩ := hI t I h e
    exact ⟨i1, i2 s, i4, fun b hb => absurd hb (i3 b), fun b hb => absurd (i1.mods_fp b hb) (i3 b), fun _ _ h => h⟩
  drop := fun t s _ => ⟨_, drops t, rfl, rfl, fun _ _ h _ => h⟩

/-! ## Borrowing iterators over another sequence -/

/-- The iterator is in the state of a `seq.iter().map(f)` whose remaining elements are intact. -/
def MapOk (T : VarLen w) (t : IterS w × List (V × Layout w)) (s : St) : Prop :=
  ∃ b cur es fin, IterAt T s b t.1 cur es fin ∧ t.2 = es.map (fun e => (e.v, e.l)) ∧ (es ≠ [] → s.blk b.blk ≠ none)

/-- The memory it borrows. -/
def MapFp (t : IterS w × List (V × Layout w)) (b : Nat) : Prop := t.2 ≠ [] ∧ b = t.1.ptr.blk

/-- What the function mapped must give: an initializer borrowing the element, of the element's layout. -/
def MapFn (T : VarLen w) (f : Ptr → V → Layout w → M (Init w)) (fv : V → Option V) : Prop :=
  ∀ s p v l, Valid T s p v l → s.blk p.blk ≠ none → ∃ I, f p v l s = .ok I s ∧ InitLawful T I ∧ I.pre s ∧ I.lay = some l ∧ (∀ b, ¬ I.mods b) ∧
      (∀ b, I.fp b → b = p.blk) ∧ I.val = fv v ∧ I.Borrows

theorem Packed.nonzero {a : Nat} (ha : 0 < a) : ∀ {es : List (Elem w)} {cur fin}, Packed a cur es fin → ∀ e ∈ es, 0 < e.l.size.toNat
  | [], _, _, _ => by simp
  | e :: es, cur, fin, h => by
    intro e' he'
    rcases List.mem_cons.1 he' with rfl | he'
    · exact h.2.1
    · exact Packed.nonzero ha h.2.2 e' he'

theorem Valid.same {s s' : St} {p : Ptr} {v l} (h : Valid T s p v l) (hs : s'.blk p.blk = s.blk p.blk) : Valid T s' p v l := by
  refine ⟨?_, ?_, ?_⟩
  · have := h.acc; unfold Acc at this ⊢; rw [hs]; exact this
  · have := h.aligned; unfold Aligned St.addr at this ⊢; rw [hs]; exact this
  · have := h.rep
    have e : viewAt s' p = viewAt s p := by funext i; unfold viewAt; rw [hs]
    rw [e]; exact this

/-- One call of `next`. -/
theorem mapRefs_next (hT : Lawful T) (hw : 8 ≤ w) {f : Ptr → V → Layout w → M (Init w)} {fv : V → Option V} (hf : MapFn T f fv) {t : IterS w × List (V × Layout w)} {s : St}
    (h : MapOk T t s) :
    (t.2 = [] ∧ (ItemIter.mapRefs T f).next t s = .ok (.done, t.1, []) s) ∨
    ∃ (p : Ptr) (v : V) (l : Layout w) (g : List (V × Layout w)) (it' : IterS w) (I : Init w), t.2 = (v, l) :: g ∧ (ItemIter.mapRefs T f).next t s = .ok (.item I, it', g) s ∧ MapOk T (it', g) s ∧ it'.ptr.blk = t.1.ptr.blk ∧ p.blk = t.1.ptr.blk ∧
      InitLawful T I ∧ I.pre s ∧ I.lay = some l ∧ 0 < l.size.toNat ∧ (∀ b, ¬ I.mods b) ∧ (∀ b, I.fp b → b = p.blk) ∧ I.val = fv v ∧ I.Borrows := by
  obtain ⟨it, g⟩ := t
  obtain ⟨b, cur, es, fin, hi, hg, hb⟩ := h
  dsimp only at hi hg ⊢
  subst hg
  cases es with
  | nil =>
    refine .inl ⟨rfl, ?_⟩
    simp only [ItemIter.mapRefs, bind_apply, Iter.next_nil hi, Res.bind_ok]; rfl
  | cons e es =>
    obtain ⟨it', e1, hi'⟩ := Iter.next_cons hT hw hi
    have hbl := hb (by simp)
    obtain ⟨I, i1, i2, i3, i4, i5, i6, i7, i8⟩ := hf s (e.at T b) e.v e.l (hi.valid e (by simp)) hbl
    refine .inr ⟨e.at T b, e.v, e.l, es.map (fun e => (e.v, e.l)), it', I, rfl, ?_, ⟨b, _, es, fin, hi', rfl, fun _ => hbl⟩, ?_, ?_, i2, i3, i4,
      hi.packed.nonzero hT.align_pow2.pos e (by simp), i5, i6, i7, i8⟩
    · simp only [ItemIter.mapRefs, bind_apply, e1, Res.bind_ok, List.map_cons, i1, pure_apply]
    · rw [hi'.ptr, hi.ptr]; rfl
    · rw [hi.ptr]; rfl

theorem MapOk.ptr_exists {t : IterS w × List (V × Layout w)} {s : St} (h : MapOk T t s) (hne : t.2 ≠ []) : s.blk t.1.ptr.blk ≠ none := by
  obtain ⟨b, cur, es, fin, hi, hg, hb⟩ := h
  rw [hi.ptr]
  exact hb fun h => hne (by rw [hg, h]; rfl)

theorem mapRefs_lawful (hT : Lawful T) (hw : 8 ≤ w) {f : Ptr → V → Layout w → M (Init w)} {fv : V → Option V} (hf : MapFn T f fv) :
    ItemIterLawful T (.mapRefs T f) (MapOk T) MapFp (fun _ _ => False) where
  own_fp := fun _ _ h => h.elim
  exist := by
    rintro t s b h ⟨h1, rfl⟩
    exact h.ptr_exists h1
  stable := by
    rintro t s s' ⟨b, cur, es, fin, hi, hg, hb⟩ hs
    have hp : es ≠ [] → s'.blk b.blk = s.blk b.blk := fun h => hs _ ⟨by rw [hg]; simpa using h, by rw [hi.ptr]; rfl⟩
    refine ⟨b, cur, es, fin, hi.of_valid fun e he => (hi.valid e he).same (hp (List.ne_nil_of_mem he)), hg, fun h => ?_⟩
    rw [hp h]; exact hb h
  next := by
    intro t s h
    rcases mapRefs_next hT hw hf h with ⟨h1, h2⟩ | ⟨p, v, l, g, it', I, h1, h2, h3, h4, h5, i1, i2, i3, i4, i5, i6, i7, i8⟩
    · refine ⟨_, _, s, [], h2, by simp, ?_, fun _ _ h _ => h, fun _ h => h, fun b hb => absurd rfl hb.1, fun _ h => h.elim, ?_⟩
      · obtain ⟨b, cur, es, fin, hi, hg, hb⟩ := h
        rw [h1] at hg
        have : es = [] := by simpa using hg.symm
        subst this
        exact ⟨b, cur, [], fin, hi, rfl, fun h => absurd rfl h⟩
      · intro I e; cases e
    · refine ⟨_, _, s, [], h2, by simp, h3, fun _ _ h _ => h, fun _ h => h, fun b hb => .inl ⟨by rw [h1]; simp, by rw [hb.2, h4]⟩, fun _ h => h.elim, ?_⟩
      intro J e
      cases e
      refine ⟨i1, i2, fun l' hl' => ?_, fun b hb => .inl ⟨by rw [h1]; simp, by rw [i6 b hb, h5]⟩, fun b hb => absurd hb (i5 b), fun b hb => absurd hb (i5 b)⟩
      rw [i3] at hl'
      cases hl'
      exact i4
  drop := fun t s _ => ⟨s, [], rfl, by simp, fun _ _ h _ => h⟩

/-- The items of a `seq.iter().map(f)`. -/
theorem mapRefs_yielded (hT : Lawful T) (hw : 8 ≤ w) {f : Ptr → V → Layout w → M (Init w)} {fv : V → Option V} (hf : MapFn T f fv) {t t' : IterS w × List (V × Layout w)} {xs}
    (h : Yielded (.mapRefs T f) (MapOk T) t xs t') :
    ∃ done, t.2 = done ++ t'.2 ∧ xs.map (fun x => x.2.val) = done.map (fun x => fv x.1) ∧ xs.length = done.length ∧ ∀ x ∈ xs, x.1 = [] ∧ x.2.Borrows := by
  induction h with
  | nil => exact ⟨[], rfl, rfl, rfl, by simp⟩
  | cons hA _ ih =>
    obtain ⟨d, e1, e2, e3, e4⟩ := ih
    obtain ⟨hok, en, el⟩ := hA
    rcases mapRefs_next hT hw hf hok with ⟨h1, h2⟩ | ⟨p, v, l, g, it', I, h1, h2, h3, h4, h5, i1, i2, i3, i4, i5, i6, i7, i8⟩
    · rw [h2] at en; cases en
    · rw [h2] at en
      simp only [Res.ok.injEq, Prod.mk.injEq, ItemStep.item.injEq] at en
      obtain ⟨⟨rfl, rfl⟩, rfl⟩ := en
      refine ⟨(v, l) :: d, by rw [h1]; simpa using e1, by simp [e2, i7], by simp [e3], fun x hx => ?_⟩
      rcases List.mem_cons.1 hx with rfl | hx
      · exact ⟨by simpa using el, i8⟩
      · exact e4 x hx

theorem mapRefs_done (hT : Lawful T) (hw : 8 ≤ w) {f : Ptr → V → Layout w → M (Init w)} {fv : V → Option V} (hf : MapFn T f fv) {t t' : IterS w × List (V × Layout w)} {s s' : St} {o ev}
    (h : Answers (.mapRefs T f) (MapOk T) t s o ev t' s') :
    ev = [] ∧ ((o = .done ∧ t.2 = []) ∨ ∃ I v l g, o = .item I ∧ t.2 = (v, l) :: g ∧ t'.2 = g ∧ I.val = fv v ∧ I.Borrows) := by
  obtain ⟨hok, en, el⟩ := h
  rcases mapRefs_next hT hw hf hok with ⟨h1, h2⟩ | ⟨p, v, l, g, it', I, h1, h2, h3, h4, h5, i1, i2, i3, i4, i5, i6, i7, i8⟩ <;> rw [h2] at en <;>
    simp only [Res.ok.injEq, Prod.mk.injEq] at en <;> obtain ⟨⟨rfl, rfl⟩, rfl⟩ := en
  · exact ⟨by simpa using el, .inl ⟨rfl, h1⟩⟩
  · exact ⟨by simpa using el, .inr ⟨I, v, l, g, rfl, h1, rfl, i7, i8⟩⟩

/-- `vclone` can be mapped. -/
theorem mapFn_vclone {C : VClone w} (hC : VCloneLawful T C) : MapFn T (fun p v _ => C.vclone p v) C.cloneV := fun s p v l hv hb => hC.ok s p v l hv hb

/-- `vcopy` can be mapped. -/
theorem mapFn_vcopy (hT : Lawful T) : MapFn T (fun p v l => pure (VCopier T p v l)) some := fun s p v l hv hb =>
  ⟨_, rfl, VCopier_lawful hT, ⟨hv, hb⟩, rfl, fun _ h => h, fun _ h => h, rfl, rfl, rfl, rfl⟩

/-- The start of an iteration over a sequence with a history. -/
theorem Hist.mapOk (hT : Lawful T) (hw : 8 ≤ w) {s q h m k} (hh : Hist T chk s q h m k) :
    ∃ g : List (V × Layout w), MapOk T (Seq.iter q, g) s ∧ g.map (·.1) = h.map (·.2) := by
  obtain ⟨es, i⟩ := hh.inv hT hw
  refine ⟨es.map (fun e => (e.v, e.l)), ⟨q.ptr, 0, es, q.occ.toNat, ?_, rfl, fun hne => ?_⟩, ?_⟩
  · exact i.inv.iterAt hT
  · have h0 : q.cap.toNat ≠ 0 := by
      intro h0
      have h1 := i.inv.packed.length_le hT.align_pow2.pos
      have h2 := i.inv.le
      have h3 := List.length_pos_iff.2 hne
      omega
    obtain ⟨_, B, hB, _⟩ := i.inv.store.owns h0
    rw [hB]; simp
  · rw [← i.entries]; simp [Function.comp_def]; intros; rfl

end Varlen
