import Verif.Proofs.TreeBorrows
/-! # Composing events: which references are live afterwards -/
namespace Varlen.TB

/-- From `S` to `S'` nothing changed about the existing references, and of the new ones only those in `L` may be live. -/
structure Grow (S S' : Tree) (L : List Nat) : Prop where
  size : S'.size = S.size
  len : S.nodes.length ≤ S'.nodes.length
  old : ∀ i, i < S.nodes.length → S'.tag i = S.tag i
  new : ∀ (i : Nat) (M : Tag), S.nodes.length ≤ i → S'.tag i = some M → i ∉ L → M.live = false

theorem tag_lt {S : Tree} {i : Nat} {M : Tag} (h : S.tag i = some M) : i < S.nodes.length := by
  obtain ⟨N, hN, -⟩ := tag_some h
  exact (List.getElem?_eq_some_iff.mp hN).1

theorem Grow.refl (S : Tree) (L : List Nat) : Grow S S L :=
  ⟨rfl, Nat.le_refl _, fun _ _ => rfl, fun _ _ h1 h2 _ => absurd (tag_lt h2) (Nat.not_lt.mpr h1)⟩

theorem Grow.trans {S S1 S2 : Tree} {L1 L2 L : List Nat} (h1 : Grow S S1 L1) (h2 : Grow S1 S2 L2) (h3 : ∀ i ∈ L1, i ∈ L) (h4 : ∀ i ∈ L2, i ∈ L) : Grow S S2 L := by
  refine ⟨h2.size.trans h1.size, Nat.le_trans h1.len h2.len, ?_, ?_⟩
  · intro i hi
    rw [h2.old i (Nat.lt_of_lt_of_le hi h1.len), h1.old i hi]
  · intro i M hi hM hL
    by_cases hlt : i < S1.nodes.length
    · rw [h2.old i hlt] at hM
      exact h1.new i M hi hM fun h => hL (h3 i h)
    · exact h2.new i M (Nat.not_lt.mp hlt) hM fun h => hL (h4 i h)

theorem Grow.quiet {S S1 S2 : Tree} {L : List Nat} (h1 : Grow S S1 L) (h2 : Grow S1 S2 []) : Grow S S2 L := h1.trans h2 (fun _ h => h) (by simp)

theorem Grow.tag {S S' : Tree} {L : List Nat} (h : Grow S S' L) {i : Nat} {M : Tag} (hM : S.tag i = some M) : S'.tag i = some M := by
  rw [h.old i (tag_lt hM)]; exact hM

theorem Grow.ofTags {S S' : Tree} (hs : S'.size = S.size) (h : S'.tags = S.tags) : Grow S S' [] := by
  have hl : S'.nodes.length = S.nodes.length := by rw [← nodes_len, ← nodes_len, h]
  have ht : ∀ i, S'.tag i = S.tag i := fun i => by rw [tag_tags, tag_tags, h]
  refine ⟨hs, Nat.le_of_eq hl.symm, fun i _ => ht i, ?_⟩
  intro i M h1 h2 _
  have := tag_lt h2
  omega

theorem access_grow {S : Tree} {t lo n : Nat} {wr : Bool} (hi : Inv S) (h : Can wr S t lo n) : ∃ S', access t wr lo n S = some ((), S') ∧ Inv S' ∧ Grow S S' [] := by
  obtain ⟨S', h1, h2, h3, h4⟩ := access_ok hi h
  exact ⟨S', h1, h2, .ofTags h3 h4⟩

/-- A tag is only derived from older ones. -/
theorem path_lt {S : Tree} (hi : Inv S) {i j : Nat} {M : Tag} (h : S.tag i = some M) (hj : j ∈ M.path) : j < S.nodes.length := by
  obtain ⟨N, hN, rfl⟩ := tag_some h
  obtain ⟨K, hK, -⟩ := hi.anc i N j hN hj
  exact (List.getElem?_eq_some_iff.mp hK).1

/-- Nothing changes about which bytes are mutable. -/
theorem Grow.mutable {S S' : Tree} {L : List Nat} (hi : Inv S) (hg : Grow S S' L) {i : Nat} {M : Tag} (h : S.tag i = some M) (x : Nat) : S'.Mutable M x ↔ S.Mutable M x := by
  constructor
  · refine Mutable.congr rfl ?_
    intro j K _ hK
    exact ⟨K, hg.tag hK, rfl, rfl⟩
  · refine Mutable.congr rfl ?_
    intro j K hj hK
    rw [hg.old j (path_lt hi h hj)] at hK
    exact ⟨K, hK, rfl, rfl⟩

/-- What `retag` gives. -/
structure Retagged (S S' : Tree) (t : Nat) (P : Tag) (uniq prot : Bool) (im : Nat → Bool) (elo elen : Nat) : Prop where
  inv : Inv S'
  par : S.tag t = some P
  grow : Grow S S' [S.nodes.length]
  tag : S'.tag S.nodes.length = some ⟨S.nodes.length :: P.path, uniq, prot, true, elo, elen, im⟩
  len : S'.nodes.length = S.nodes.length + 1

theorem retag_grow {S : Tree} {t lo n elo elen : Nat} {uniq prot : Bool} {im : Nat → Bool} (hi : Inv S) (hr : Can uniq S t elo elen) (h1 : elo ≤ lo) (h2 : lo + n ≤ elo + elen) :
    ∃ P S', retag t uniq prot im lo n elo elen S = some (S.nodes.length, S') ∧ Retagged S S' t P uniq prot im elo elen := by
  obtain ⟨P, S', h3, h4, h5, h6, h7⟩ := retag_ok (prot := prot) (im := im) hi hr h1 h2
  have hl : S'.nodes.length = S.nodes.length + 1 := by rw [← nodes_len, h7, ← nodes_len]; simp
  refine ⟨P, S', h4, h5, h3, ⟨h6, by omega, ?_, ?_⟩, ?_, hl⟩
  · intro i hlt
    rw [tag_tags, tag_tags, h7, List.getElem?_append_left (by rw [nodes_len]; exact hlt)]
  · intro i M h8 h9 h10
    have := tag_lt h9
    exact absurd (by simp; omega : i ∈ [S.nodes.length]) h10
  · rw [tag_tags, h7, ← nodes_len]; simp

theorem Retagged.mutable {S S' : Tree} {t : Nat} {P : Tag} {uniq prot : Bool} {im : Nat → Bool} {elo elen : Nat} (hi : Inv S) (h : Retagged S S' t P uniq prot im elo elen) (x : Nat) :
    S'.Mutable ⟨S.nodes.length :: P.path, uniq, prot, true, elo, elen, im⟩ x ↔ (uniq = true ∨ im x = true) ∧ S.Mutable P x := by
  rw [← h.grow.mutable hi h.par]
  constructor
  · intro hm
    exact ⟨hm _ _ (.head _) h.tag, fun j K hj hK => hm j K (.tail _ hj) hK⟩
  · rintro ⟨h1, h2⟩ j K hj hK
    rcases List.mem_cons.mp hj with hj | hj
    · subst hj
      rw [h.tag] at hK; cases hK
      exact h1
    · exact h2 j K hj hK

/-- A new mutable reference may be written. -/
theorem Retagged.canWrite {S S' : Tree} {t : Nat} {P : Tag} {prot : Bool} {im : Nat → Bool} {elo elen : Nat} (hi : Inv S) (h : Retagged S S' t P true prot im elo elen) :
    CanWrite S' S.nodes.length elo elen := by
  refine ⟨⟨_, h.tag, rfl, rfl, Nat.le_refl _, Nat.le_refl _⟩, ?_⟩
  intro i M hM hl hp hit
  exfalso
  by_cases hlt : i < S.nodes.length
  · rw [h.grow.old i hlt] at hM
    exact Nat.lt_irrefl _ (path_lt hi hM hp)
  · have := tag_lt hM
    have := h.len
    omega

/-- A live shared reference for (at least) the given bytes. -/
def Reader (S : Tree) (a lo n : Nat) : Prop := ∃ A, S.tag a = some A ∧ A.live = true ∧ A.uniq = false ∧ A.Covers lo n

theorem Reader.canRead {S : Tree} {a lo n : Nat} (hi : Inv S) (h : Reader S a lo n) : CanRead S a lo n := by
  obtain ⟨A, h1, h2, h3, h4⟩ := h
  have key : ∀ (i : Nat) (M : Tag), S.tag i = some M → M.uniq = true → a ∈ M.path → False := by
    intro i M hM hu hp
    obtain ⟨N, hN, rfl⟩ := tag_some hM
    obtain ⟨K, hK, -, h5⟩ := hi.anc i N a hN hp
    rw [tag_eq hK] at h1; cases h1
    rw [h5 hu] at h3; cases h3
  exact ⟨⟨A, h1, h2, h4⟩, fun i M hM _ hu hp _ => (key i M hM hu hp).elim, fun _ _ _ k K _ _ _ _ _ _ _ _ hK hu hp => (key k K hK hu hp).elim⟩

theorem Reader.grow {S S' : Tree} {a lo n : Nat} {L : List Nat} (h : Reader S a lo n) (hg : Grow S S' L) : Reader S' a lo n := by
  obtain ⟨A, h1, h2, h3, h4⟩ := h
  exact ⟨A, hg.tag h1, h2, h3, h4⟩

theorem Reader.sub {S : Tree} {a lo n lo' n' : Nat} (h : Reader S a lo n) (h1 : lo ≤ lo') (h2 : lo' + n' ≤ lo + n) : Reader S a lo' n' := by
  obtain ⟨A, h3, h4, h5, h6⟩ := h
  refine ⟨A, h3, h4, h5, ?_⟩
  unfold Tag.Covers at h6 ⊢
  omega

theorem Retagged.reader {S S' : Tree} {t : Nat} {P : Tag} {prot : Bool} {im : Nat → Bool} {elo elen : Nat} (h : Retagged S S' t P false prot im elo elen) :
    Reader S' S.nodes.length elo elen := ⟨_, h.tag, rfl, rfl, Nat.le_refl _, Nat.le_refl _⟩

theorem CanWrite.grow {S S' : Tree} {t lo n : Nat} {L : List Nat} (h : CanWrite S t lo n) (hg : Grow S S' L)
    (hL : ∀ i ∈ L, ∀ M, S'.tag i = some M → M.Apart lo n) : CanWrite S' t lo n := by
  obtain ⟨⟨N, h1, h2⟩, h3⟩ := h
  refine ⟨⟨N, hg.tag h1, h2⟩, ?_⟩
  intro i M hM hl hp hit
  by_cases hlt : i < S.nodes.length
  · rw [hg.old i hlt] at hM; exact h3 i M hM hl hp hit
  · by_cases hm : i ∈ L
    · exact hL i hm M hM
    · rw [hg.new i M (Nat.not_lt.mp hlt) hM hm] at hl; cases hl

theorem CanWrite.quiet {S S' : Tree} {t lo n : Nat} (h : CanWrite S t lo n) (hg : Grow S S' []) : CanWrite S' t lo n := h.grow hg (by simp)

theorem CanRead.grow {S S' : Tree} {t lo n : Nat} {L : List Nat} (hi : Inv S) (h : CanRead S t lo n) (hg : Grow S S' L)
    (hL : ∀ i ∈ L, ∀ M, S'.tag i = some M → M.Apart lo n ∨ (M.uniq = false ∧ ∀ (k : Nat) (K : Tag), k ∈ M.path → S'.tag k = some K → K.uniq = true → t ∈ K.path → k = t)) : CanRead S' t lo n := by
  obtain ⟨⟨N, h1, h2⟩, h3, h4⟩ := h
  refine ⟨⟨N, hg.tag h1, h2⟩, ?_, ?_⟩
  · intro i M hM hl hu hp hit
    by_cases hlt : i < S.nodes.length
    · rw [hg.old i hlt] at hM; exact h3 i M hM hl hu hp hit
    · by_cases hm : i ∈ L
      · rcases hL i hm M hM with h | ⟨h, -⟩
        · exact h
        · rw [hu] at h; cases h
      · rw [hg.new i M (Nat.not_lt.mp hlt) hM hm] at hl; cases hl
  · intro i M x k K hM hl hu hx hr hmu hp hk hK hKu ht
    by_cases hlt : i < S.nodes.length
    · rw [hg.old i hlt] at hM
      rw [hg.mutable hi hM] at hmu
      rw [hg.old k (path_lt hi hM hk)] at hK
      exact h4 i M x k K hM hl hu hx hr hmu hp hk hK hKu ht
    · by_cases hm : i ∈ L
      · rcases hL i hm M hM with h | ⟨-, h⟩
        · exact absurd hr (h x hx)
        · exact h k K hk hK hKu ht
      · rw [hg.new i M (Nat.not_lt.mp hlt) hM hm] at hl; cases hl

theorem set_tags {S S' : Tree} {t : Nat} {M : Tag} (h : S'.tags = S.tags.set t M) (ht : t < S.nodes.length) :
    S'.nodes.length = S.nodes.length ∧ S'.tag t = some M ∧ ∀ i, i ≠ t → S'.tag i = S.tag i := by
  refine ⟨by rw [← nodes_len, h, ← nodes_len]; simp, ?_, ?_⟩
  · rw [tag_tags, h, List.getElem?_set_self (by rw [nodes_len]; exact ht)]
  · intro i hi
    rw [tag_tags, tag_tags, h, List.getElem?_set_ne (Ne.symm hi)]

/-- After `t` is not used any more. -/
structure Killed (S S' : Tree) (t : Nat) : Prop where
  inv : Inv S'
  size : S'.size = S.size
  len : S'.nodes.length = S.nodes.length
  dead : ∃ M, S'.tag t = some M ∧ M.live = false
  kind : ∀ (M : Tag) (x : Nat), S'.Mutable M x ↔ S.Mutable M x
  other : ∀ i, i ≠ t → S'.tag i = S.tag i

theorem set_mutable {S S' : Tree} {t : Nat} {M M' : Tag} (h : S.tag t = some M) (h' : S'.tag t = some M') (hu : M'.uniq = M.uniq) (hm : M'.im = M.im) (ho : ∀ i, i ≠ t → S'.tag i = S.tag i)
    (N : Tag) (x : Nat) : S'.Mutable N x ↔ S.Mutable N x := by
  constructor
  · refine Mutable.congr rfl ?_
    intro j K _ hK
    by_cases hj : j = t
    · subst hj
      rw [h] at hK; cases hK
      exact ⟨M', h', hu.symm, hm.symm⟩
    · exact ⟨K, by rw [ho j hj]; exact hK, rfl, rfl⟩
  · refine Mutable.congr rfl ?_
    intro j K _ hK
    by_cases hj : j = t
    · subst hj
      rw [h'] at hK; cases hK
      exact ⟨M, h, hu, hm⟩
    · exact ⟨K, by rw [← ho j hj]; exact hK, rfl, rfl⟩

theorem kill_grow {S : Tree} (hi : Inv S) {t : Nat} {M : Tag} (h : S.tag t = some M) (hp : M.prot = false) : ∃ S', kill t S = some ((), S') ∧ Killed S S' t := by
  obtain ⟨S', h1, h2, h3, h4⟩ := kill_ok hi h hp
  obtain ⟨h5, h6, h7⟩ := set_tags h4 (tag_lt h)
  exact ⟨S', h1, h2, h3, h5, ⟨_, h6, rfl⟩, set_mutable h h6 rfl rfl h7, h7⟩

theorem ret_grow {S : Tree} (hi : Inv S) {t : Nat} {M : Tag} (h : S.tag t = some M) (hp : M.prot = true) : ∃ S', ret t S = some ((), S') ∧ Killed S S' t := by
  obtain ⟨S', h1, h2, h3, h4⟩ := ret_ok hi h hp
  obtain ⟨h5, h6, h7⟩ := set_tags h4 (tag_lt h)
  exact ⟨S', h1, h2, h3, h5, ⟨_, h6, rfl⟩, set_mutable h h6 rfl rfl h7, h7⟩

theorem Killed.grow {S0 S S' : Tree} {t : Nat} {L L' : List Nat} (hk : Killed S S' t) (hg : Grow S0 S L) (ht : S0.nodes.length ≤ t) (hL : ∀ i ∈ L, i ≠ t → i ∈ L') : Grow S0 S' L' := by
  refine ⟨hk.size.trans hg.size, by rw [hk.len]; exact hg.len, ?_, ?_⟩
  · intro i hi
    rw [hk.other i (by omega), hg.old i hi]
  · intro i M hi hM hn
    by_cases hit : i = t
    · subst hit
      obtain ⟨K, h1, h2⟩ := hk.dead
      rw [h1] at hM; cases hM; exact h2
    · rw [hk.other i hit] at hM
      exact hg.new i M hi hM fun h => hn (hL i h hit)

/-- The end of a scope: the reference made at its beginning is not used any more. -/
theorem Retagged.scope {S S1 S2 : Tree} {t : Nat} {P : Tag} {uniq : Bool} {im : Nat → Bool} {elo elen : Nat} {L : List Nat} (h : Retagged S S1 t P uniq false im elo elen) (hi2 : Inv S2) (hg : Grow S1 S2 L) :
    ∃ S3, kill S.nodes.length S2 = some ((), S3) ∧ Inv S3 ∧ Grow S S3 L ∧ (∀ i, i ≠ S.nodes.length → S3.tag i = S2.tag i) ∧ ∀ (M : Tag) (x : Nat), S3.Mutable M x ↔ S2.Mutable M x := by
  obtain ⟨S3, h1, h2⟩ := kill_grow hi2 (hg.tag h.tag) rfl
  have hg' : Grow S S2 (S.nodes.length :: L) := h.grow.trans hg (by simp) (fun i hi => .tail _ hi)
  refine ⟨S3, h1, h2.inv, h2.grow hg' (Nat.le_refl _) ?_, h2.other, h2.kind⟩
  intro i hi hne
  rcases List.mem_cons.mp hi with h | h
  · exact absurd h hne
  · exact h

/-- The same for a function's argument. -/
theorem Retagged.scopeRet {S S1 S2 : Tree} {t : Nat} {P : Tag} {uniq : Bool} {im : Nat → Bool} {elo elen : Nat} {L : List Nat} (h : Retagged S S1 t P uniq true im elo elen) (hi2 : Inv S2) (hg : Grow S1 S2 L) :
    ∃ S3, ret S.nodes.length S2 = some ((), S3) ∧ Inv S3 ∧ Grow S S3 L ∧ (∀ i, i ≠ S.nodes.length → S3.tag i = S2.tag i) ∧ ∀ (M : Tag) (x : Nat), S3.Mutable M x ↔ S2.Mutable M x := by
  obtain ⟨S3, h1, h2⟩ := ret_grow hi2 (hg.tag h.tag) rfl
  have hg' : Grow S S2 (S.nodes.length :: L) := h.grow.trans hg (by simp) (fun i hi => .tail _ hi)
  refine ⟨S3, h1, h2.inv, h2.grow hg' (Nat.le_refl _) ?_, h2.other, h2.kind⟩
  intro i hi hne
  rcases List.mem_cons.mp hi with h | h
  · exact absurd h hne
  · exact h

theorem self_path {S : Tree} (hi : Inv S) {t : Nat} {P : Tag} (hP : S.tag t = some P) : t ∈ P.path := by
  obtain ⟨N, hN, rfl⟩ := tag_some hP
  exact hi.own t N hN

/-- `Pin<&mut _>` arguments. -/
theorem mutArg_grow {S : Tree} (pin : Bool) {t lo n size : Nat} (hi : Inv S) (hw : CanWrite S t lo size) (hn : n ≤ size) :
    ∃ a S1, mutArg pin t lo n lo size S = some (a, S1) ∧ Inv S1 ∧ CanWrite S1 a lo size ∧ (Grow S S1 [S.nodes.length] ∧ ∃ A, S1.tag a = some A ∧ t ∈ A.path) ∧
      ∀ S2 L, Inv S2 → Grow S1 S2 L → ∃ S3, mutRet pin a S2 = some ((), S3) ∧ Inv S3 ∧ Grow S S3 L ∧ (∀ i, S1.nodes.length ≤ i → S3.tag i = S2.tag i) ∧
        ∀ (M : Tag) (x : Nat), S3.Mutable M x ↔ S2.Mutable M x := by
  cases pin with
  | false =>
    obtain ⟨N, h0, -⟩ := hw.live
    refine ⟨t, S, rfl, hi, hw, ⟨.refl S _, N, h0, self_path hi h0⟩, ?_⟩
    intro S2 L h1 h2
    exact ⟨S2, rfl, h1, h2, fun _ _ => rfl, fun _ _ => Iff.rfl⟩
  | true =>
    obtain ⟨P, S1, h1, h2⟩ := retag_grow (uniq := true) (prot := true) (im := noIm) (lo := lo) (n := n) hi hw (Nat.le_refl _) (by omega)
    refine ⟨_, S1, h1, h2.inv, h2.canWrite hi, ⟨h2.grow, _, h2.tag, .tail _ (self_path hi h2.par)⟩, ?_⟩
    intro S2 L h3 h4
    obtain ⟨S3, h5, h6, h7, h8, h9⟩ := h2.scopeRet h3 h4
    refine ⟨S3, h5, h6, h7, fun i h => h8 i ?_, h9⟩
    have := h2.len
    omega

end Varlen.TB
