import Verif.Spec.TreeBorrows
/-! # Tree Borrows: programs that the borrow checker accepts have no undefined behaviour -/
namespace Varlen.TB

theorem tag_eq {S : Tree} {i : Nat} {N : Node} (h : S.nodes[i]? = some N) : S.tag i = some N.toTag := by simp [Tree.tag, h]

theorem tag_some {S : Tree} {i : Nat} {M : Tag} (h : S.tag i = some M) : ∃ N, S.nodes[i]? = some N ∧ N.toTag = M := by
  unfold Tree.tag at h
  cases hn : S.nodes[i]? with
  | none => rw [hn] at h; cases h
  | some N => rw [hn] at h; exact ⟨N, rfl, by simpa using h⟩

/-- The permissions that allow a write through the tag. -/
def Perm.Writable (p : Perm) : Prop := p = .reserved false ∨ p = .reservedIM ∨ p = .active ∨ p = .cell

/-- The permissions of a shared reference. -/
def Perm.Shared (im : Bool) (p : Perm) : Prop := if im then p = .cell else p = .frozen ∨ p = .disabled

/-- The invariant. -/
structure Inv (S : Tree) : Prop where
  own : ∀ (i : Nat) (N : Node), S.nodes[i]? = some N → i ∈ N.path
  anc : ∀ (i : Nat) (N : Node) (j : Nat), S.nodes[i]? = some N → j ∈ N.path → ∃ M : Node, S.nodes[j]? = some M ∧ (∀ k ∈ M.path, k ∈ N.path) ∧ (N.uniq = true → M.uniq = true)
  lin : ∀ (i : Nat) (N : Node) (j k : Nat), S.nodes[i]? = some N → j ∈ N.path → k ∈ N.path → ∀ (M K : Node), S.nodes[j]? = some M → S.nodes[k]? = some K → j ∈ K.path ∨ k ∈ M.path
  rel : ∀ (i j : Nat) (N M : Node) (x : Nat), S.nodes[i]? = some N → S.nodes[j]? = some M → N.live = true → M.live = true → N.Has x → M.Has x → (N.uniq = true ∨ M.uniq = true) →
    i ∈ M.path ∨ j ∈ N.path
  asym : ∀ (i j : Nat) (N M : Node), S.nodes[i]? = some N → S.nodes[j]? = some M → i ∈ M.path → j ∈ N.path → i = j
  relIM : ∀ (i j k : Nat) (N M K : Node) (x : Nat), S.nodes[i]? = some N → S.nodes[j]? = some M → S.nodes[k]? = some K → N.live = true → M.live = true → M.uniq = false → N.Has x → M.Has x →
    S.Mutable M.toTag x → k ∈ M.path → K.uniq = true → k ∈ N.path ∨ i ∈ K.path
  shr : ∀ (i : Nat) (N : Node) (x : Nat), S.nodes[i]? = some N → N.uniq = false → (N.cell x).perm.Shared (N.im x)
  imOk : ∀ (i : Nat) (N : Node) (x j : Nat) (M : Node), S.nodes[i]? = some N → N.live = true → S.Mutable N.toTag x → N.Has x → j ∈ N.path → S.nodes[j]? = some M → (M.cell x).perm.Writable
  liveOk : ∀ (i : Nat) (N : Node) (x j : Nat) (M : Node), S.nodes[i]? = some N → N.live = true → N.Has x → j ∈ N.path → S.nodes[j]? = some M → (M.cell x).perm ≠ .disabled
  prot : ∀ (i : Nat) (N : Node), S.nodes[i]? = some N → N.prot = true → N.live = true
  acc : ∀ (i : Nat) (N : Node) (x : Nat), S.nodes[i]? = some N → N.prot = true → (N.cell x).acc = true → N.Has x
  act : ∀ (i : Nat) (N : Node) (x : Nat), S.nodes[i]? = some N → (N.cell x).perm = .active → N.uniq = true ∧ (N.cell x).acc = true
  sub : ∀ (i : Nat) (N : Node) (j : Nat) (M : Node) (x : Nat), S.nodes[i]? = some N → N.live = true → j ∈ N.path → S.nodes[j]? = some M → M.live = true → N.Has x → M.Has x
  inb : ∀ (i : Nat) (N : Node), S.nodes[i]? = some N → N.lo + N.len ≤ S.size

/-- Bytes of a tag that a protected node covers if active. -/
theorem Inv.protActive {S : Tree} (h : Inv S) {i : Nat} {N : Node} {x : Nat} (hn : S.nodes[i]? = some N) (hp : N.prot = true)
    (ha : (N.cell x).perm = .active) : N.live = true ∧ N.uniq = true ∧ N.Has x := by
  obtain ⟨h1, h2⟩ := h.act i N x hn ha
  exact ⟨h.prot i N hn hp, h1, h.acc i N x hn hp h2⟩

theorem Inv.uniqMutable {S : Tree} (h : Inv S) {i : Nat} {N : Node} (hn : S.nodes[i]? = some N) (hu : N.uniq = true) (x : Nat) : S.Mutable N.toTag x := by
  intro j K hj hK
  obtain ⟨M, hM, -, h2⟩ := h.anc i N j hn hj
  rw [tag_eq hM] at hK; cases hK
  exact .inl (h2 hu)

/-- Whether a byte is mutable depends on the kinds of the tags only. -/
theorem Mutable.congr {S S' : Tree} {N N' : Tag} {x : Nat} (hp : N'.path = N.path)
    (h : ∀ (j : Nat) (K' : Tag), j ∈ N.path → S'.tag j = some K' → ∃ K, S.tag j = some K ∧ K'.uniq = K.uniq ∧ K'.im = K.im) (hm : S.Mutable N x) : S'.Mutable N' x := by
  intro j K' hj hK'
  rw [hp] at hj
  obtain ⟨K, h1, h2, h3⟩ := h j K' hj hK'
  rw [h2, h3]
  exact hm j K hj h1

/-- The condition under which an access through `t` is fine. -/
structure TouchOk (S : Tree) (t : Nat) (N : Node) (skip : Bool) (sel : Nat → Option Bool) : Prop where
  node : S.nodes[t]? = some N
  live : N.live = true
  has : ∀ x wr, sel x = some wr → N.Has x
  wr : ∀ x, sel x = some true → N.uniq = true ∨ ∀ (i : Nat) (M : Node), S.nodes[i]? = some M → M.live = true → M.Has x → S.Mutable M.toTag x
  excl : ∀ (x : Nat) (wr : Bool) (i : Nat) (M : Node), sel x = some wr → S.nodes[i]? = some M → M.live = true → M.Has x → (M.uniq = true ∨ (wr = true ∧ N.uniq = true)) → t ∈ M.path → i ≠ t → skip = true
  cells : ∀ (x : Nat) (wr : Bool) (i : Nat) (M : Node) (k : Nat) (K : Node), sel x = some wr → S.nodes[i]? = some M → M.live = true → M.uniq = false → M.Has x → S.Mutable M.toTag x →
    k ∈ M.path → S.nodes[k]? = some K → K.uniq = true → t ∈ K.path → k ≠ t → skip = true

variable {S : Tree} {t : Nat} {N : Node} {skip : Bool} {sel : Nat → Option Bool}

/-- A live reference that covers an accessed byte and conflicts with the access is an ancestor of it, or skipped. -/
theorem TouchOk.conflict (h : TouchOk S t N skip sel) (hi : Inv S) {x : Nat} {wr : Bool} (hs : sel x = some wr) {i : Nat} {M : Node} (hm : S.nodes[i]? = some M)
    (hl : M.live = true) (hx : M.Has x) (hc : M.uniq = true ∨ (wr = true ∧ N.uniq = true)) : i ∈ N.path ∨ (skip = true ∧ t ∈ M.path ∧ i ≠ t) := by
  have hrel : t ∈ M.path ∨ i ∈ N.path := by
    refine hi.rel t i N M x h.node hm h.live hl (h.has x wr hs) hx ?_
    rcases hc with hc | hc
    · exact .inr hc
    · exact .inl hc.2
  rcases hrel with hr | hr
  · by_cases hit : i = t
    · subst hit; exact .inl (hi.own i N h.node)
    · exact .inr ⟨h.excl x wr i M hs hm hl hx hc hr hit, hr, hit⟩
  · exact .inl hr

theorem TouchOk.writable (h : TouchOk S t N skip sel) (hi : Inv S) {x : Nat} (hs : sel x = some true) : S.Mutable N.toTag x := by
  rcases h.wr x hs with h1 | h1
  · exact hi.uniqMutable h.node h1 x
  · exact h1 t N h.node h.live (h.has x true hs)

/-- No undefined behaviour at a cell. -/
theorem TouchOk.cell (h : TouchOk S t N skip sel) (hi : Inv S) {i : Nat} {M : Node} (hm : S.nodes[i]? = some M) (x : Nat) :
    ∃ c, M.cellAfter N.path t skip sel i x = some c := by
  unfold Node.cellAfter
  cases hs : sel x with
  | none => exact ⟨_, rfl⟩
  | some wr =>
    dsimp only
    split
    · exact ⟨_, rfl⟩
    · rename_i hsk
      by_cases hloc : i ∈ N.path
      · have hnd : (M.cell x).perm ≠ .disabled := hi.liveOk t N x i M h.node h.live (h.has x wr hs) hloc hm
        have hwr : wr = true → (M.cell x).perm.Writable := by
          intro hw; subst hw
          exact hi.imOk t N x i M h.node h.live (h.writable hi hs) (h.has x true hs) hloc hm
        simp only [hloc, decide_true]
        unfold Cell.step
        generalize (M.cell x).perm = p at *
        cases p with
        | disabled => exact absurd rfl hnd
        | active => cases wr <;> simp [Perm.step]
        | cell => simp [Perm.step]
        | reservedIM => cases wr <;> simp [Perm.step]
        | frozen =>
          cases wr with
          | true => rcases hwr rfl with h | h | h | h <;> cases h
          | false => simp [Perm.step]
        | reserved c =>
          cases wr with
          | true =>
            rcases hwr rfl with h | h | h | h
            · cases h; simp [Perm.step]
            · cases h
            · cases h
            · cases h
          | false => simp [Perm.step]
      · simp only [hloc, decide_false]
        have hno : M.prot = true → (M.cell x).acc = true → (M.cell x).perm ≠ .cell → (wr = true ∨ (M.cell x).perm = .active) → False := by
          intro hp ha hnc hw
          have hl := hi.prot i M hm hp
          have hx := hi.acc i M x hm hp ha
          have hc : M.uniq = true ∨ (wr = true ∧ N.uniq = true) := by
            rcases hw with hw | hw
            · subst hw
              rcases h.wr x hs with h1 | h1
              · exact .inr ⟨rfl, h1⟩
              · left
                rcases h1 i M hm hl hx i M.toTag (hi.own i M hm) (tag_eq hm) with h2 | h2
                · exact h2
                · cases hu : M.uniq with
                  | true => rfl
                  | false =>
                    have := hi.shr i M x hm hu
                    rw [h2] at this
                    exact absurd this hnc
            · exact .inl (hi.act i M x hm hw).1
          rcases h.conflict hi hs hm hl hx hc with h' | ⟨h1, h2, h3⟩
          · exact hloc h'
          · apply hsk; simp [h1, h2, h3]
        unfold Cell.step
        generalize (M.cell x).perm = p at *
        generalize (M.cell x).acc = a at *
        generalize M.prot = q at *
        cases q <;> cases a <;> cases wr <;> cases p <;> simp [Perm.step] at hno ⊢

/-- The tree after an access. -/
structure Touched (S S' : Tree) (t : Nat) (N : Node) (skip : Bool) (sel : Nat → Option Bool) : Prop where
  size : S'.size = S.size
  len : S'.nodes.length = S.nodes.length
  node : ∀ (i : Nat) (M' : Node), S'.nodes[i]? = some M' → ∃ M : Node, S.nodes[i]? = some M ∧ M'.toTag = M.toTag ∧ ∀ x, M.cellAfter N.path t skip sel i x = some (M'.cell x)
  back : ∀ (i : Nat) (M : Node), S.nodes[i]? = some M → ∃ M' : Node, S'.nodes[i]? = some M' ∧ M'.toTag = M.toTag

theorem TouchOk.touch (h : TouchOk S t N skip sel) (hi : Inv S) : ∃ S', S.touch t skip sel = some S' ∧ Touched S S' t N skip sel := by
  unfold Tree.touch
  rw [h.node]
  dsimp only
  rw [if_pos]
  · refine ⟨_, rfl, rfl, by simp, ?_, ?_⟩
    · intro i M' hM'
      simp only [List.getElem?_mapIdx, Option.map_eq_some_iff] at hM'
      obtain ⟨M, hM, rfl⟩ := hM'
      refine ⟨M, hM, rfl, ?_⟩
      intro x
      obtain ⟨c, hc⟩ := h.cell hi hM x
      by_cases hx : x < S.size
      · simp only [hx, if_true, hc, Option.getD_some]
      · simp only [hx, if_false]
        unfold Node.cellAfter
        cases hs : sel x with
        | none => rfl
        | some wr =>
          have h1 := h.has x wr hs
          have h2 := hi.inb t N h.node
          unfold Tag.Has at h1
          omega
    · intro i M hM
      refine ⟨⟨M.toTag, fun x => if x < S.size then (M.cellAfter N.path t skip sel i x).getD (M.cell x) else M.cell x⟩, ?_, rfl⟩
      rw [List.getElem?_mapIdx, hM]
      exact rfl
  · rw [List.all_eq_true]
    rintro ⟨M, i⟩ hmem
    rw [List.all_eq_true]
    intro x _
    have hM : S.nodes[i]? = some M := by simpa using List.mk_mem_zipIdx_iff_getElem?.mp hmem
    obtain ⟨c, hc⟩ := h.cell hi hM x
    simp only [hc, Option.isSome_some]

/-- What happens to a cell, if it is in a path of interest. -/
theorem cellAfter_local {M : Node} {P : List Nat} {i x : Nat} {c : Cell} (h : M.cellAfter P t skip sel i x = some c) (hl : sel x = none ∨ i ∈ P ∨ (skip = true ∧ t ∈ M.path ∧ i ≠ t)) :
    ((M.cell x).perm ≠ .disabled → c.perm ≠ .disabled) ∧ ((M.cell x).perm.Writable → c.perm.Writable) := by
  unfold Node.cellAfter at h
  cases hs : sel x with
  | none =>
    rw [hs] at h
    cases h
    exact ⟨id, id⟩
  | some wr =>
    rw [hs] at h
    dsimp only at h
    split at h
    · cases h; exact ⟨id, id⟩
    · rename_i hsk
      rcases hl with hl | hl | ⟨h1, h2, h3⟩
      · rw [hs] at hl; cases hl
      · simp only [hl, decide_true] at h
        unfold Cell.step at h
        unfold Perm.Writable
        generalize (M.cell x).perm = p at *
        cases p with
        | disabled => simp [Perm.step] at h
        | active => cases wr <;> simp [Perm.step] at h <;> subst h <;> simp
        | cell => cases wr <;> simp [Perm.step] at h <;> subst h <;> simp
        | reservedIM => cases wr <;> simp [Perm.step] at h <;> subst h <;> simp
        | frozen => cases wr <;> simp [Perm.step] at h <;> subst h <;> simp
        | reserved b =>
          cases wr with
          | true =>
            by_cases hb : (b && M.prot) = true
            · simp [Perm.step, hb] at h
            · simp [Perm.step, hb] at h
              subst h; simp
          | false => simp [Perm.step] at h; subst h; simp
      · exfalso; apply hsk; simp [h1, h2, h3]

/-- The permissions of shared references stay such. -/
theorem cellAfter_shared {M : Node} {P : List Nat} {i x : Nat} {c : Cell} (h : M.cellAfter P t skip sel i x = some c) (b : Bool) (hp : (M.cell x).perm.Shared b) : c.perm.Shared b := by
  unfold Node.cellAfter at h
  cases hs : sel x with
  | none => rw [hs] at h; cases h; exact hp
  | some wr =>
    rw [hs] at h
    dsimp only at h
    split at h
    · cases h; exact hp
    · unfold Cell.step at h
      generalize (M.cell x).perm = p at *
      generalize M.prot = q at *
      generalize (M.cell x).acc = a at *
      generalize decide (i ∈ P) = l at *
      unfold Perm.Shared at hp ⊢
      cases b with
      | true =>
        simp only [if_true] at hp ⊢
        subst hp
        simp [Perm.step] at h
        subst h; rfl
      | false =>
        simp only [Bool.false_eq_true, if_false] at hp ⊢
        rcases hp with rfl | rfl
        · cases l <;> cases wr <;> cases q <;> cases a <;> simp [Perm.step] at h <;> subst h <;> simp
        · cases l <;> cases wr <;> cases q <;> cases a <;> simp [Perm.step] at h <;> subst h <;> simp

/-- A read disables a cell only if it is protected and active. -/
theorem cellAfter_read {M : Node} {P : List Nat} {i x : Nat} {c : Cell} (h : M.cellAfter P t skip sel i x = some c) (hr : sel x = some false)
    (hd : (M.cell x).perm ≠ .disabled) (hc : c.perm = .disabled) : M.prot = true ∧ (M.cell x).perm = .active := by
  unfold Node.cellAfter at h
  rw [hr] at h
  dsimp only at h
  split at h
  · cases h; exact absurd hc hd
  · unfold Cell.step at h
    generalize (M.cell x).perm = p at *
    generalize M.prot = q at *
    generalize decide (i ∈ P) = l at *
    cases p <;> cases l <;> cases q <;> simp [Perm.step] at h hd ⊢ <;> first | (subst h; simp at hc) | (obtain ⟨_, h⟩ := h; subst h; simp at hc)

theorem cellAfter_active {M : Node} {P : List Nat} {i x : Nat} {c : Cell} (h : M.cellAfter P t skip sel i x = some c) (hc : c.perm = .active) :
    ((M.cell x).perm = .active ∨ (sel x = some true ∧ i ∈ P ∧ c.acc = true)) ∧ ((M.cell x).acc = true → c.acc = true) := by
  unfold Node.cellAfter at h
  cases hs : sel x with
  | none => rw [hs] at h; cases h; exact ⟨.inl hc, id⟩
  | some wr =>
    rw [hs] at h
    dsimp only at h
    split at h
    · cases h; exact ⟨.inl hc, id⟩
    · unfold Cell.step at h
      by_cases hl : i ∈ P
      · simp only [hl, decide_true] at h ⊢
        generalize (M.cell x).perm = p at *
        generalize M.prot = q at *
        cases p with
        | disabled => simp [Perm.step] at h
        | active => cases wr <;> simp [Perm.step] at h <;> subst h <;> simp
        | cell => simp [Perm.step] at h; subst h; cases hc
        | reservedIM => cases wr <;> simp [Perm.step] at h <;> subst h <;> simp at hc ⊢
        | frozen => cases wr <;> simp [Perm.step] at h; subst h; cases hc
        | reserved b =>
          cases wr with
          | true => cases b <;> cases q <;> simp [Perm.step] at h <;> subst h <;> simp
          | false => simp [Perm.step] at h; subst h; cases hc
      · simp only [hl, decide_false] at h ⊢
        generalize (M.cell x).perm = p at *
        generalize M.prot = q at *
        generalize (M.cell x).acc = a at *
        exfalso
        cases p <;> cases wr <;> cases q <;> cases a <;> simp [Perm.step] at h <;> subst h <;> cases hc

theorem cellAfter_acc {M : Node} {P : List Nat} {i x : Nat} {c : Cell} (h : M.cellAfter P t skip sel i x = some c) (hc : c.acc = true) :
    (M.cell x).acc = true ∨ ((∃ wr, sel x = some wr) ∧ i ∈ P) := by
  unfold Node.cellAfter at h
  cases hs : sel x with
  | none => rw [hs] at h; cases h; exact .inl hc
  | some wr =>
    rw [hs] at h
    dsimp only at h
    split at h
    · cases h; exact .inl hc
    · unfold Cell.step at h
      split at h
      · cases h
      · split at h
        · cases h
        · cases h
          simp only [Bool.or_eq_true, decide_eq_true_eq] at hc
          rcases hc with hc | hc
          · exact .inl hc
          · exact .inr ⟨⟨wr, rfl⟩, hc⟩

theorem Touched.mutable {S' : Tree} (ht : Touched S S' t N skip sel) {M : Tag} {x : Nat} : S'.Mutable M x ↔ S.Mutable M x := by
  constructor
  · refine Mutable.congr rfl ?_
    intro j K _ hK
    obtain ⟨A, hA, rfl⟩ := tag_some hK
    obtain ⟨A', hA', e⟩ := ht.back j A hA
    exact ⟨A'.toTag, tag_eq hA', by rw [e], by rw [e]⟩
  · refine Mutable.congr rfl ?_
    intro j K _ hK
    obtain ⟨A', hA', rfl⟩ := tag_some hK
    obtain ⟨A, hA, e, -⟩ := ht.node j A' hA'
    exact ⟨A.toTag, tag_eq hA, by rw [e], by rw [e]⟩

/-- An access of the permitted kind keeps the invariant. -/
theorem TouchOk.inv (h : TouchOk S t N skip sel) (hi : Inv S) {S' : Tree} (ht : Touched S S' t N skip sel) : Inv S' := by
  have himOk : ∀ (i : Nat) (M : Node) (x j : Nat) (K K' : Node), S.nodes[i]? = some M → M.live = true → S.Mutable M.toTag x → M.Has x → j ∈ M.path → S.nodes[j]? = some K →
      K.cellAfter N.path t skip sel j x = some (K'.cell x) → (K'.cell x).perm.Writable := by
    intro i M x j K K' hM hl hmu hx hj hK hc
    have hp := hi.imOk i M x j K hM hl hmu hx hj hK
    by_cases hjN : j ∈ N.path
    · exact (cellAfter_local hc (.inr (.inl hjN))).2 hp
    cases hs : sel x with
    | none => exact (cellAfter_local hc (.inl hs)).2 hp
    | some wr =>
      cases hKu : K.uniq with
      | false =>
        have hKi : K.im x = true := by
          rcases hmu j K.toTag hj (tag_eq hK) with h1 | h1
          · rw [hKu] at h1; cases h1
          · exact h1
        have h1 := hi.shr j K x hK hKu
        rw [hKi] at h1
        exact .inr (.inr (.inr (cellAfter_shared hc true h1)))
      | true =>
        refine (cellAfter_local hc (.inr (.inr ?_))).2 hp
        have hjt : j ≠ t := by
          rintro rfl
          exact hjN (hi.own j N h.node)
        cases hMu : M.uniq with
        | true =>
          rcases h.conflict hi hs hM hl hx (.inl hMu) with hc' | ⟨h1, h2, h3⟩
          · obtain ⟨M1, hM1, h4, -⟩ := hi.anc t N i h.node hc'
            rw [hM] at hM1; cases hM1
            exact absurd (h4 j hj) hjN
          · rcases hi.lin i M j t hM hj h2 K N hK h.node with h6 | h6
            · exact absurd h6 hjN
            · exact ⟨h1, h6, hjt⟩
        | false =>
          rcases hi.relIM t i j N M K x h.node hM hK h.live hl hMu (h.has x wr hs) hx hmu hj hKu with h1 | h1
          · exact absurd h1 hjN
          · exact ⟨h.cells x wr i M j K hs hM hl hMu hx hmu hj hK hKu h1 hjt, h1, hjt⟩
  constructor
  · intro i M' hM'
    obtain ⟨M, hM, e, -⟩ := ht.node i M' hM'
    rw [e]; exact hi.own i M hM
  · intro i M' j hM' hj
    obtain ⟨M, hM, e, -⟩ := ht.node i M' hM'
    rw [e] at hj ⊢
    obtain ⟨K, hK, h1, h2⟩ := hi.anc i M j hM hj
    obtain ⟨K', hK', e'⟩ := ht.back j K hK
    exact ⟨K', hK', by rw [e']; exact h1, by rw [e']; exact h2⟩
  · intro i M' j k hM' hj hk A' K' hA' hK'
    obtain ⟨M, hM, e, -⟩ := ht.node i M' hM'
    obtain ⟨A, hA, eA, -⟩ := ht.node j A' hA'
    obtain ⟨K, hK, eK, -⟩ := ht.node k K' hK'
    rw [e] at hj hk
    rw [eA, eK]
    exact hi.lin i M j k hM hj hk A K hA hK
  · intro i j N' M' x hN' hM' h1 h2 h3 h4 h5
    obtain ⟨A, hA, eA, -⟩ := ht.node i N' hN'
    obtain ⟨K, hK, eK, -⟩ := ht.node j M' hM'
    rw [eA] at h1 h3 h5 ⊢
    rw [eK] at h2 h4 h5 ⊢
    exact hi.rel i j A K x hA hK h1 h2 h3 h4 h5
  · intro i j N' M' hN' hM' h1 h2
    obtain ⟨A, hA, eA, -⟩ := ht.node i N' hN'
    obtain ⟨K, hK, eK, -⟩ := ht.node j M' hM'
    rw [eA] at h2
    rw [eK] at h1
    exact hi.asym i j A K hA hK h1 h2
  · intro i j k N' M' K' x hN' hM' hK' h1 h2 h3 h4 h5 h6 h7 h8
    obtain ⟨A, hA, eA, -⟩ := ht.node i N' hN'
    obtain ⟨M, hM, eM, -⟩ := ht.node j M' hM'
    obtain ⟨K, hK, eK, -⟩ := ht.node k K' hK'
    rw [ht.mutable] at h6
    rw [eA] at h1 h4 ⊢
    rw [eM] at h2 h3 h5 h6 h7
    rw [eK] at h8 ⊢
    exact hi.relIM i j k A M K x hA hM hK h1 h2 h3 h4 h5 h6 h7 h8
  · intro i M' x hM' hu
    obtain ⟨M, hM, e, hc⟩ := ht.node i M' hM'
    rw [e] at hu ⊢
    exact cellAfter_shared (hc x) _ (hi.shr i M x hM hu)
  · intro i M' x j K' hM' hl hmu hx hj hK'
    obtain ⟨M, hM, e, -⟩ := ht.node i M' hM'
    obtain ⟨K, hK, eK, hc⟩ := ht.node j K' hK'
    rw [ht.mutable] at hmu
    rw [e] at hl hmu hx hj
    exact himOk i M x j K K' hM hl hmu hx hj hK (hc x)
  · intro i M' x j K' hM' hl hx hj hK' hd
    obtain ⟨M, hM, e, -⟩ := ht.node i M' hM'
    obtain ⟨K, hK, eK, hc⟩ := ht.node j K' hK'
    rw [e] at hl hx hj
    have hp := hi.liveOk i M x j K hM hl hx hj hK
    have key : ∀ wr, sel x = some wr → (i ∈ N.path ∨ (skip = true ∧ t ∈ M.path ∧ i ≠ t)) → False := by
      intro wr hs hcf
      refine (cellAfter_local (hc x) ?_).1 hp hd
      right
      rcases hcf with hc' | ⟨h1, h2, h3⟩
      · left
        obtain ⟨M1, hM1, h4, -⟩ := hi.anc t N i h.node hc'
        rw [hM] at hM1; cases hM1
        exact h4 j hj
      · rcases hi.lin i M j t hM hj h2 K N hK h.node with h6 | h6
        · exact .inl h6
        · by_cases hjt : j = t
          · subst hjt; exact .inl (hi.own j N h.node)
          · exact .inr ⟨h1, h6, hjt⟩
    cases hs : sel x with
    | none => exact (cellAfter_local (hc x) (.inl hs)).1 hp hd
    | some wr =>
      cases wr with
      | true =>
        rcases h.wr x hs with h1 | h1
        · exact key true hs (h.conflict hi hs hM hl hx (.inr ⟨rfl, h1⟩))
        · have := himOk i M x j K K' hM hl (h1 i M hM hl hx) hx hj hK (hc x)
          rw [hd] at this
          rcases this with h | h | h | h <;> cases h
      | false =>
        obtain ⟨h1, h2⟩ := cellAfter_read (hc x) hs hp hd
        obtain ⟨h3, h4, h5⟩ := hi.protActive hK h1 h2
        have hcf := h.conflict hi hs hK h3 h5 (.inl h4)
        exact (cellAfter_local (hc x) (.inr hcf)).1 hp hd
  · intro i M' hM' hp
    obtain ⟨M, hM, e, -⟩ := ht.node i M' hM'
    rw [e] at hp ⊢
    exact hi.prot i M hM hp
  · intro i M' x hM' hp ha
    obtain ⟨M, hM, e, hc⟩ := ht.node i M' hM'
    rw [e] at hp ⊢
    rcases cellAfter_acc (hc x) ha with h1 | ⟨⟨wr, h1⟩, h2⟩
    · exact hi.acc i M x hM hp h1
    · exact hi.sub t N i M x h.node h.live h2 hM (hi.prot i M hM hp) (h.has x wr h1)
  · intro i M' x hM' ha
    obtain ⟨M, hM, e, hc⟩ := ht.node i M' hM'
    rw [e]
    obtain ⟨h1, h2⟩ := cellAfter_active (hc x) ha
    rcases h1 with h1 | ⟨h1, h3, h4⟩
    · obtain ⟨h5, h6⟩ := hi.act i M x hM h1
      exact ⟨h5, h2 h6⟩
    · refine ⟨?_, h4⟩
      cases hu : M.uniq with
      | true => rfl
      | false =>
        have h5 := cellAfter_shared (hc x) _ (hi.shr i M x hM hu)
        unfold Perm.Shared at h5
        rw [ha] at h5
        cases hb : M.im x with
        | true => rw [hb] at h5; cases h5
        | false => rw [hb] at h5; rcases h5 with h5 | h5 <;> cases h5
  · intro i N' j M' x hN' hl hj hM' hl' hx
    obtain ⟨A, hA, eA, -⟩ := ht.node i N' hN'
    obtain ⟨K, hK, eK, -⟩ := ht.node j M' hM'
    rw [eA] at hl hj hx
    rw [eK] at hl' ⊢
    exact hi.sub i A j K x hA hl hj hK hl' hx
  · intro i M' hM'
    obtain ⟨M, hM, e, -⟩ := ht.node i M' hM'
    rw [e, ht.size]; exact hi.inb i M hM

/-! ## Events -/

theorem bind_some {α β : Type} {m : B α} {f : α → B β} {S S' : Tree} {a : α} (h : m S = some (a, S')) : (m >>= f) S = f a S' := by
  show (match m S with | none => none | some (a, T) => f a T) = _
  rw [h]

theorem pure_some {α : Type} (a : α) (S : Tree) : (pure a : B α) S = some (a, S) := rfl

/-- Which tags there are, what they are for, and which are live. -/
def Tree.tags (S : Tree) : List Tag := S.nodes.map Node.toTag

theorem tag_tags (S : Tree) (i : Nat) : S.tag i = S.tags[i]? := by simp [Tree.tag, Tree.tags]

theorem Touched.tags {S' : Tree} (h : Touched S S' t N skip sel) : S'.tags = S.tags := by
  apply List.ext_getElem?
  intro i
  rw [← tag_tags, ← tag_tags]
  cases hn : S'.nodes[i]? with
  | none =>
    have : S.nodes[i]? = none := by
      rw [List.getElem?_eq_none_iff] at hn ⊢
      rw [← h.len]; exact hn
    simp [Tree.tag, hn, this]
  | some M' =>
    obtain ⟨M, hM, e, -⟩ := h.node i M' hn
    simp [Tree.tag, hn, hM, e]

theorem CanWrite.canRead {S : Tree} {t lo n : Nat} (h : CanWrite S t lo n) : CanRead S t lo n := by
  obtain ⟨⟨N, h1, h2, h3, h4⟩, h5⟩ := h
  refine ⟨⟨N, h1, h2, h4⟩, fun i M a b _ c d => h5 i M a b c d, ?_⟩
  intro i M x k K hM hl hu hx hr _ hp _ _ _ _
  have hit : i ≠ t := by
    rintro rfl
    rw [h1] at hM; cases hM
    rw [h3] at hu; cases hu
  exact absurd hr (h5 i M hM hl hp hit x hx)

theorem Tag.Apart.sub {M : Tag} {lo n lo' n' : Nat} (h : M.Apart lo n) (h1 : lo ≤ lo') (h2 : lo' + n' ≤ lo + n) : M.Apart lo' n' := by
  intro x hx hx'
  exact h x hx ⟨by omega, by omega⟩

theorem CanRead.sub {S : Tree} {t lo n lo' n' : Nat} (h : CanRead S t lo n) (h1 : lo ≤ lo') (h2 : lo' + n' ≤ lo + n) : CanRead S t lo' n' := by
  obtain ⟨⟨N, h3, h4, h5⟩, h6, h7⟩ := h
  refine ⟨⟨N, h3, h4, ?_⟩, fun i M a b c d e => (h6 i M a b c d e).sub h1 h2, ?_⟩
  · unfold Tag.Covers at h5 ⊢
    omega
  · intro i M x k K a b c d e f g hk hK hu ht
    exact h7 i M x k K a b c d ⟨by omega, by omega⟩ f g hk hK hu ht

theorem CanWrite.sub {S : Tree} {t lo n lo' n' : Nat} (h : CanWrite S t lo n) (h1 : lo ≤ lo') (h2 : lo' + n' ≤ lo + n) : CanWrite S t lo' n' := by
  obtain ⟨⟨N, h3, h4, h5, h5'⟩, h6⟩ := h
  refine ⟨⟨N, h3, h4, h5, ?_⟩, fun i M a b c d => (h6 i M a b c d).sub h1 h2⟩
  unfold Tag.Covers at h5' ⊢
  omega

theorem range_some {wr wr' : Bool} {lo n x : Nat} (h : range wr lo n x = some wr') : wr' = wr ∧ lo ≤ x ∧ x < lo + n := by
  unfold range at h
  split at h
  · cases h; rename_i h; exact ⟨rfl, h⟩
  · cases h

/-- The conditions for reading and writing. -/
def Can (wr : Bool) (S : Tree) (t lo n : Nat) : Prop := if wr then CanWrite S t lo n else CanRead S t lo n

theorem Can.touchOk {wr : Bool} {lo n : Nat} (hi : Inv S) (h : Can wr S t lo n) : ∃ N, TouchOk S t N false (range wr lo n) := by
  cases wr with
  | true =>
    replace h : CanWrite S t lo n := h
    obtain ⟨⟨T, h1, h2, h3, h4⟩, h5⟩ := h
    obtain ⟨N, hN, rfl⟩ := tag_some h1
    refine ⟨N, hN, h2, ?_, fun _ _ => .inl h3, ?_, ?_⟩
    · intro x wr hs
      obtain ⟨-, h6, h7⟩ := range_some hs
      unfold Tag.Covers at h4
      unfold Tag.Has
      omega
    · intro x wr i M hs hM hl hx hc hp hit
      obtain ⟨-, h6, h7⟩ := range_some hs
      exact absurd ⟨h6, h7⟩ (h5 i M.toTag (tag_eq hM) hl hp hit x hx)
    · intro x wr i M k K hs hM hl hu hx _ hk hK _ ht _
      obtain ⟨-, h6, h7⟩ := range_some hs
      obtain ⟨K1, hK1, h8, -⟩ := hi.anc i M k hM hk
      rw [hK] at hK1; cases hK1
      have hit : i ≠ t := by
        rintro rfl
        rw [hN] at hM; cases hM
        rw [h3] at hu; cases hu
      exact absurd ⟨h6, h7⟩ (h5 i M.toTag (tag_eq hM) hl (h8 t ht) hit x hx)
  | false =>
    replace h : CanRead S t lo n := h
    obtain ⟨⟨T, h1, h2, h4⟩, h5, h5'⟩ := h
    obtain ⟨N, hN, rfl⟩ := tag_some h1
    refine ⟨N, hN, h2, ?_, ?_, ?_, ?_⟩
    · intro x wr hs
      obtain ⟨-, h6, h7⟩ := range_some hs
      unfold Tag.Covers at h4
      unfold Tag.Has
      omega
    · intro x hs
      have := (range_some hs).1
      cases this
    · intro x wr i M hs hM hl hx hc hp hit
      obtain ⟨rfl, h6, h7⟩ := range_some hs
      rcases hc with hc | hc
      · exact absurd ⟨h6, h7⟩ (h5 i M.toTag (tag_eq hM) hl hc hp hit x hx)
      · cases hc.1
    · intro x wr i M k K hs hM hl hu hx hmu hk hK hKu ht hkt
      obtain ⟨-, h6, h7⟩ := range_some hs
      obtain ⟨K1, hK1, h8, -⟩ := hi.anc i M k hM hk
      rw [hK] at hK1; cases hK1
      exact absurd (h5' i M.toTag x k K.toTag (tag_eq hM) hl hu hx ⟨h6, h7⟩ hmu (h8 t ht) hk (tag_eq hK) hKu ht) hkt

theorem CanStore.touchOk {lo n : Nat} (hi : Inv S) (h : CanStore S t lo n) : ∃ N, TouchOk S t N false (range true lo n) := by
  obtain ⟨⟨T, h1, h2, h3, h4⟩, h5⟩ := h
  obtain ⟨N, hN, rfl⟩ := tag_some h1
  have hno : ∀ {i : Nat} {M : Node}, S.nodes[i]? = some M → M.uniq = true → t ∈ M.path → False := by
    intro i M hM hu hp
    obtain ⟨K, hK, -, h6⟩ := hi.anc i M t hM hp
    rw [hN] at hK; cases hK
    rw [h6 hu] at h3; cases h3
  refine ⟨N, hN, h2, ?_, ?_, ?_, ?_⟩
  · intro x wr hs
    obtain ⟨-, h6, h7⟩ := range_some hs
    unfold Tag.Covers at h4
    unfold Tag.Has
    omega
  · intro x hs
    obtain ⟨-, h6, h7⟩ := range_some hs
    exact .inr fun i M hM hl hx => h5 i M.toTag x (tag_eq hM) hl hx ⟨h6, h7⟩
  · intro x wr i M hs hM hl hx hc hp hit
    rcases hc with hc | ⟨-, hc⟩
    · exact (hno hM hc hp).elim
    · rw [h3] at hc; cases hc
  · intro x wr i M k K hs hM hl hu hx hmu hk hK hKu ht hkt
    exact (hno hK hKu ht).elim

theorem Can.inb {wr : Bool} {lo n : Nat} (hi : Inv S) (h : Can wr S t lo n) : lo + n ≤ S.size := by
  have h' : CanRead S t lo n := by
    cases wr with
    | true => exact CanWrite.canRead h
    | false => exact h
  obtain ⟨⟨T, h1, h2, h4⟩, -, -⟩ := h'
  obtain ⟨N, hN, rfl⟩ := tag_some h1
  have := hi.inb t N hN
  unfold Tag.Covers at h4
  omega

theorem access_ok {wr : Bool} {lo n : Nat} (hi : Inv S) (h : Can wr S t lo n) :
    ∃ S', access t wr lo n S = some ((), S') ∧ Inv S' ∧ S'.size = S.size ∧ S'.tags = S.tags := by
  obtain ⟨N, hN⟩ := h.touchOk hi
  obtain ⟨S', h1, h2⟩ := hN.touch hi
  refine ⟨S', ?_, hN.inv hi h2, h2.size, h2.tags⟩
  unfold access
  rw [if_pos (h.inb hi), h1]
  rfl

theorem store_ok {lo n : Nat} (hi : Inv S) (h : CanStore S t lo n) :
    ∃ S', access t true lo n S = some ((), S') ∧ Inv S' ∧ S'.size = S.size ∧ S'.tags = S.tags := by
  obtain ⟨N, hN⟩ := h.touchOk hi
  obtain ⟨S', h1, h2⟩ := hN.touch hi
  refine ⟨S', ?_, hN.inv hi h2, h2.size, h2.tags⟩
  obtain ⟨T, h3, -, -, h4⟩ := h.live
  rw [tag_eq hN.node] at h3; cases h3
  have := hi.inb t N hN.node
  unfold Tag.Covers at h4
  unfold access
  rw [if_pos (by omega), h1]
  rfl

/-- The tree with the new tag, before the read of the reborrow. -/
theorem Inv.grow (hi : Inv S) {P : Node} (hP : S.nodes[t]? = some P) {uniq prot : Bool} {im : Nat → Bool} {elo elen : Nat} (hr : Can uniq S t elo elen) :
    Inv { S with nodes := S.nodes ++ [⟨⟨S.nodes.length :: P.path, uniq, prot, true, elo, elen, im⟩, fun x => ⟨newPerm uniq prot (im x), false⟩⟩] } := by
  have hr' : CanRead S t elo elen := by
    cases uniq with
    | true => exact CanWrite.canRead hr
    | false => exact hr
  generalize hC : (⟨⟨S.nodes.length :: P.path, uniq, prot, true, elo, elen, im⟩, fun x => ⟨newPerm uniq prot (im x), false⟩⟩ : Node) = C
  have hlt : ∀ {i : Nat} {M : Node}, S.nodes[i]? = some M → i < S.nodes.length := fun h => (List.getElem?_eq_some_iff.mp h).1
  have hget : ∀ {i : Nat} {M : Node}, (S.nodes ++ [C])[i]? = some M → S.nodes[i]? = some M ∨ (i = S.nodes.length ∧ M = C) := by
    intro i M h
    rcases Nat.lt_trichotomy i S.nodes.length with h1 | h1 | h1
    · rw [List.getElem?_append_left h1] at h; exact .inl h
    · subst h1; simp at h; exact .inr ⟨rfl, h.symm⟩
    · rw [List.getElem?_eq_none (by simp; omega)] at h; cases h
  have hput : ∀ {i : Nat} {M : Node}, S.nodes[i]? = some M → (S.nodes ++ [C])[i]? = some M := by
    intro i M h; rw [List.getElem?_append_left (hlt h)]; exact h
  have hputC : (S.nodes ++ [C])[S.nodes.length]? = some C := by simp
  have hfresh : ∀ {i : Nat} {M : Node}, S.nodes[i]? = some M → S.nodes.length ∉ M.path := by
    intro i M h hm
    obtain ⟨K, hK, -⟩ := hi.anc i M _ h hm
    exact Nat.lt_irrefl _ (hlt hK)
  have hpath : C.path = S.nodes.length :: P.path := by subst hC; rfl
  have hCu : C.uniq = uniq := by subst hC; rfl
  have hCl : C.live = true := by subst hC; rfl
  have hChas : ∀ {x}, C.Has x ↔ elo ≤ x ∧ x < elo + elen := by subst hC; exact Iff.rfl
  obtain ⟨Pl, Pc⟩ : P.live = true ∧ P.Covers elo elen := by
    obtain ⟨N, h1, h2, h3⟩ := hr'.live
    rw [tag_eq hP] at h1; cases h1
    exact ⟨h2, h3⟩
  have Phas : ∀ {x}, C.Has x → P.Has x := by
    intro x hx
    rw [hChas] at hx
    unfold Tag.Covers at Pc
    unfold Tag.Has; omega
  have Pu : uniq = true → P.uniq = true := by
    intro h; subst h
    obtain ⟨N, h1, h2, h3, -⟩ := CanWrite.live hr
    rw [tag_eq hP] at h1; cases h1
    exact h3
  have hcell : ∀ x, C.cell x = ⟨newPerm uniq prot (im x), false⟩ := by subst hC; exact fun _ => rfl
  have hCi : C.im = im := by subst hC; rfl
  have htagOld : ∀ {j : Nat} {K : Tag}, j ≠ S.nodes.length → Tree.tag { S with nodes := S.nodes ++ [C] } j = some K → S.tag j = some K := by
    intro j K hj hK
    obtain ⟨A, hA, rfl⟩ := tag_some hK
    rcases hget hA with h | ⟨h, -⟩
    · exact tag_eq h
    · exact absurd h hj
  have htagNew : ∀ {j : Nat} {K : Tag}, S.tag j = some K → Tree.tag { S with nodes := S.nodes ++ [C] } j = some K := by
    intro j K hK
    obtain ⟨A, hA, rfl⟩ := tag_some hK
    exact tag_eq (S := { S with nodes := S.nodes ++ [C] }) (hput hA)
  have hmuOld : ∀ {i : Nat} {M : Node} {x : Nat}, S.nodes[i]? = some M → Tree.Mutable { S with nodes := S.nodes ++ [C] } M.toTag x → S.Mutable M.toTag x := by
    intro i M x _ hmu j K hj hK
    exact hmu j K hj (htagNew hK)
  have hmuC : ∀ {x : Nat}, Tree.Mutable { S with nodes := S.nodes ++ [C] } C.toTag x → S.Mutable P.toTag x ∧ (uniq = true ∨ im x = true) := by
    intro x hmu
    constructor
    · intro j K hj hK
      exact hmu j K (by rw [hpath]; exact .tail _ hj) (htagNew hK)
    · have := hmu S.nodes.length C.toTag (by rw [hpath]; exact .head _) (tag_eq (S := { S with nodes := S.nodes ++ [C] }) hputC)
      rw [hCu, hCi] at this
      exact this
  have hrelC : ∀ {i : Nat} {M : Node} {x : Nat}, S.nodes[i]? = some M → M.live = true → M.Has x → C.Has x → (M.uniq = true ∨ uniq = true) → i ∈ P.path := by
    intro i M x hM hl hx hxC hu
    have hxP := Phas hxC
    have hrl := hi.rel t i P M x hP hM Pl hl hxP hx (by
      rcases hu with h | h
      · exact .inr h
      · exact .inl (Pu h))
    rcases hrl with h | h
    · by_cases hit : i = t
      · subst hit; exact hi.own i P hP
      · exfalso
        rw [hChas] at hxC
        cases uniq with
        | true => exact (CanWrite.excl hr) i M.toTag (tag_eq hM) hl h hit x hx hxC
        | false =>
          rcases hu with hu | hu
          · exact (CanRead.excl hr) i M.toTag (tag_eq hM) hl hu h hit x hx hxC
          · cases hu
    · exact h
  constructor
  · intro i M h
    replace h := hget h
    rcases h with h | ⟨rfl, rfl⟩
    · exact hi.own i M h
    · rw [hpath]; exact .head _
  · intro i M j h hj
    replace h := hget h
    rcases h with h | ⟨rfl, rfl⟩
    · obtain ⟨K, hK, h1⟩ := hi.anc i M j h hj
      exact ⟨K, hput hK, h1⟩
    · rw [hpath] at hj
      rcases List.mem_cons.mp hj with hj | hj
      · subst hj; exact ⟨M, hputC, fun _ h => h, id⟩
      · obtain ⟨K, hK, h1, h2⟩ := hi.anc t P j hP hj
        refine ⟨K, hput hK, fun k hk => ?_, fun hu => h2 (Pu (hCu ▸ hu))⟩
        rw [hpath]; exact .tail _ (h1 k hk)
  · intro i M j k h hj hk A K hA hK
    replace h := hget h
    rcases h with h | ⟨rfl, rfl⟩
    · replace hA := hget hA
      rcases hA with hA | ⟨rfl, rfl⟩
      · replace hK := hget hK
        rcases hK with hK | ⟨rfl, rfl⟩
        · exact hi.lin i M j k h hj hk A K hA hK
        · exact absurd hk (hfresh h)
      · exact absurd hj (hfresh h)
    · rw [hpath] at hj hk
      rcases List.mem_cons.mp hj with hj | hj
      · subst hj
        replace hA := hget hA
        rcases hA with hA | ⟨-, rfl⟩
        · exact absurd (hlt hA) (Nat.lt_irrefl _)
        · right; rw [hpath]; exact hk
      · rcases List.mem_cons.mp hk with hk | hk
        · subst hk
          replace hK := hget hK
          rcases hK with hK | ⟨-, rfl⟩
          · exact absurd (hlt hK) (Nat.lt_irrefl _)
          · left; rw [hpath]; exact .tail _ hj
        · replace hA := hget hA
          rcases hA with hA | ⟨rfl, rfl⟩
          · replace hK := hget hK
            rcases hK with hK | ⟨rfl, rfl⟩
            · exact hi.lin t P j k hP hj hk A K hA hK
            · exact absurd hk (hfresh hP)
          · exact absurd hj (hfresh hP)
  · intro i j A K x hA hK hl hl' hx hx' hu
    replace hA := hget hA
    rcases hA with hA | ⟨rfl, rfl⟩
    · replace hK := hget hK
      rcases hK with hK | ⟨rfl, rfl⟩
      · exact hi.rel i j A K x hA hK hl hl' hx hx' hu
      · left; rw [hpath]; exact .tail _ (hrelC hA hl hx hx' (hCu ▸ hu))
    · replace hK := hget hK
      rcases hK with hK | ⟨rfl, rfl⟩
      · right; rw [hpath]; exact .tail _ (hrelC hK hl' hx' hx (hCu ▸ hu.symm))
      · left; rw [hpath]; exact .head _
  · intro i j A K hA hK h1 h2
    replace hA := hget hA
    rcases hA with hA | ⟨rfl, rfl⟩
    · replace hK := hget hK
      rcases hK with hK | ⟨rfl, rfl⟩
      · exact hi.asym i j A K hA hK h1 h2
      · exact absurd h2 (hfresh hA)
    · replace hK := hget hK
      rcases hK with hK | ⟨rfl, rfl⟩
      · exact absurd h1 (hfresh hK)
      · rfl
  · intro i j k A M K x hA hM hK h1 h2 h3 h4 h5 h6 h7 h8
    replace hK := hget hK
    rcases hK with hK | ⟨rfl, rfl⟩
    · replace hA := hget hA
      rcases hA with hA | ⟨rfl, rfl⟩
      · replace hM := hget hM
        rcases hM with hM | ⟨rfl, rfl⟩
        · exact hi.relIM i j k A M K x hA hM hK h1 h2 h3 h4 h5 (hmuOld hM h6) h7 h8
        · rw [hpath] at h7
          have h7' : k ∈ P.path := by
            rcases List.mem_cons.mp h7 with h | h
            · subst h; exact absurd (hlt hK) (Nat.lt_irrefl _)
            · exact h
          cases hPu : P.uniq with
          | true =>
            rcases hi.rel i t A P x hA hP h1 Pl h4 (Phas h5) (.inr hPu) with h | h
            · rcases hi.lin t P i k hP h h7' A K hA hK with h' | h'
              · exact .inr h'
              · exact .inl h'
            · left
              obtain ⟨P1, hP1, h9, -⟩ := hi.anc i A t hA h
              rw [hP] at hP1; cases hP1
              exact h9 k h7'
          | false => exact hi.relIM i t k A P K x hA hP hK h1 Pl hPu h4 (Phas h5) (hmuC h6).1 h7' h8
      · replace hM := hget hM
        rcases hM with hM | ⟨rfl, rfl⟩
        · left
          rw [hpath]
          refine .tail _ ?_
          rcases hi.relIM t j k P M K x hP hM hK Pl h2 h3 (Phas h4) h5 (hmuOld hM h6) h7 h8 with h | h
          · exact h
          · have hkt : k = t := by
              obtain ⟨K1, hK1, h9, -⟩ := hi.anc j M k hM h7
              rw [hK] at hK1; cases hK1
              exact hr'.cells j M.toTag x k K.toTag (tag_eq hM) h2 h3 h5 (hChas.mp h4) (hmuOld hM h6) (h9 t h) h7 (tag_eq hK) h8 h
            rw [hkt]; exact hi.own t P hP
        · left; exact h7
    · replace hM := hget hM
      rcases hM with hM | ⟨rfl, rfl⟩
      · exact absurd h7 (hfresh hM)
      · rw [h3] at h8; cases h8
  · intro i M x h hu
    replace h := hget h
    rcases h with h | ⟨rfl, rfl⟩
    · exact hi.shr i M x h hu
    · rw [hCu] at hu
      rw [hcell, hCi, hu]
      unfold Perm.Shared newPerm
      cases im x <;> simp
  · intro i M x j K h hl hmu hx hj hK
    replace h := hget h
    rcases h with h | ⟨rfl, rfl⟩
    · replace hK := hget hK
      rcases hK with hK | ⟨rfl, rfl⟩
      · exact hi.imOk i M x j K h hl (hmuOld h hmu) hx hj hK
      · exact absurd hj (hfresh h)
    · replace hK := hget hK
      rcases hK with hK | ⟨rfl, rfl⟩
      · rw [hpath] at hj
        rcases List.mem_cons.mp hj with hj | hj
        · subst hj; exact absurd (hlt hK) (Nat.lt_irrefl _)
        · exact hi.imOk t P x j K hP Pl (hmuC hmu).1 (Phas hx) hj hK
      · rw [hcell]
        have := (hmuC hmu).2
        unfold Perm.Writable newPerm
        cases uniq <;> cases prot <;> cases hb : im x <;> simp [hb] at this ⊢
  · intro i M x j K h hl hx hj hK
    replace h := hget h
    rcases h with h | ⟨rfl, rfl⟩
    · replace hK := hget hK
      rcases hK with hK | ⟨rfl, rfl⟩
      · exact hi.liveOk i M x j K h hl hx hj hK
      · exact absurd hj (hfresh h)
    · replace hK := hget hK
      rcases hK with hK | ⟨rfl, rfl⟩
      · rw [hpath] at hj
        rcases List.mem_cons.mp hj with hj | hj
        · subst hj; exact absurd (hlt hK) (Nat.lt_irrefl _)
        · exact hi.liveOk t P x j K hP Pl (Phas hx) hj hK
      · rw [hcell]; unfold newPerm; cases uniq <;> cases prot <;> cases im x <;> simp
  · intro i M h hp
    replace h := hget h
    rcases h with h | ⟨rfl, rfl⟩
    · exact hi.prot i M h hp
    · exact hCl
  · intro i M x h hp ha
    replace h := hget h
    rcases h with h | ⟨rfl, rfl⟩
    · exact hi.acc i M x h hp ha
    · rw [hcell] at ha; cases ha
  · intro i M x h ha
    replace h := hget h
    rcases h with h | ⟨rfl, rfl⟩
    · exact hi.act i M x h ha
    · rw [hcell] at ha; unfold newPerm at ha; dsimp only at ha; generalize im x = b at ha; cases uniq <;> cases prot <;> cases b <;> simp at ha
  · intro i M j K x h hl hj hK hl' hx
    replace h := hget h
    rcases h with h | ⟨rfl, rfl⟩
    · replace hK := hget hK
      rcases hK with hK | ⟨rfl, rfl⟩
      · exact hi.sub i M j K x h hl hj hK hl' hx
      · exact absurd hj (hfresh h)
    · replace hK := hget hK
      rcases hK with hK | ⟨rfl, rfl⟩
      · rw [hpath] at hj
        rcases List.mem_cons.mp hj with hj | hj
        · subst hj; exact absurd (hlt hK) (Nat.lt_irrefl _)
        · exact hi.sub t P j K x hP Pl hj hK hl' (Phas hx)
      · exact hx
  · intro i M h
    replace h := hget h
    rcases h with h | ⟨rfl, rfl⟩
    · exact hi.inb i M h
    · have h1 := hi.inb t P hP
      unfold Tag.Covers at Pc
      subst hC
      show elo + elen ≤ S.size
      omega

theorem retag_ok {uniq prot : Bool} {im : Nat → Bool} {lo n elo elen : Nat} (hi : Inv S) (hr : Can uniq S t elo elen) (h1 : elo ≤ lo) (h2 : lo + n ≤ elo + elen) :
    ∃ P S', S.tag t = some P ∧ retag t uniq prot im lo n elo elen S = some (S.nodes.length, S') ∧ Inv S' ∧ S'.size = S.size ∧
      S'.tags = S.tags ++ [⟨S.nodes.length :: P.path, uniq, prot, true, elo, elen, im⟩] := by
  have hr' : CanRead S t elo elen := by
    cases uniq with
    | true => exact CanWrite.canRead hr
    | false => exact hr
  obtain ⟨⟨T, h3, h4, h5⟩, -, -⟩ := hr'
  obtain ⟨P, hP, rfl⟩ := tag_some h3
  have hg := hi.grow hP (prot := prot) (im := im) hr
  have hfresh : ∀ {i : Nat} {M : Node}, S.nodes[i]? = some M → S.nodes.length ∉ M.path := by
    intro i M h hm
    obtain ⟨K, hK, -⟩ := hi.anc i M _ h hm
    exact Nat.lt_irrefl _ (List.getElem?_eq_some_iff.mp hK).1
  unfold retag
  rw [hP]
  dsimp only
  rw [if_pos (by have := hr.inb hi; omega)]
  generalize hC : (⟨⟨S.nodes.length :: P.path, uniq, prot, true, elo, elen, im⟩, fun x => ⟨newPerm uniq prot (im x), false⟩⟩ : Node) = C at hg ⊢
  have htag : C.toTag = ⟨S.nodes.length :: P.path, uniq, prot, true, elo, elen, im⟩ := by subst hC; rfl
  have hsel : ∀ {x : Nat} {wr : Bool}, (if newPerm uniq prot (im x) = .cell then none else range false lo n x) = some wr → wr = false ∧ lo ≤ x ∧ x < lo + n := by
    intro x wr hs
    split at hs
    · cases hs
    · exact range_some hs
  have hcf : ∀ {i : Nat} {M : Node}, (S.nodes ++ [C])[i]? = some M → S.nodes.length ∈ M.path → i ≠ S.nodes.length → False := by
    intro i M hM hp hit
    rcases Nat.lt_trichotomy i S.nodes.length with h8 | h8 | h8
    · rw [List.getElem?_append_left h8] at hM
      exact hfresh hM hp
    · exact hit h8
    · rw [List.getElem?_eq_none (by simp; omega)] at hM; cases hM
  have hok : TouchOk { S with nodes := S.nodes ++ [C] } S.nodes.length C false (fun x => if newPerm uniq prot (im x) = .cell then none else range false lo n x) := by
    refine ⟨by simp, by rw [htag], ?_, ?_, ?_, ?_⟩
    · intro x wr hs
      obtain ⟨-, h6, h7⟩ := hsel hs
      rw [htag]
      unfold Tag.Has
      dsimp only
      omega
    · intro x hs
      have := (hsel hs).1
      cases this
    · intro x wr i M hs hM hl hx hc hp hit
      exact (hcf hM hp hit).elim
    · intro x wr i M k K _ _ _ _ _ _ _ hK _ hp hit
      exact (hcf hK hp hit).elim
  obtain ⟨S', h6, h7⟩ := hok.touch hg
  refine ⟨P.toTag, S', tag_eq hP, ?_, hok.inv hg h7, h7.size, ?_⟩
  · rw [h6]; rfl
  · rw [h7.tags, ← htag]; simp [Tree.tags]

theorem nodes_len (S : Tree) : S.tags.length = S.nodes.length := by simp [Tree.tags]

/-- Changing the ghost liveness (to dead) or the protection (off). -/
theorem Inv.set (hi : Inv S) {N : Node} (hN : S.nodes[t]? = some N) {p l : Bool} (hp : p = true → N.prot = true) (hl : l = true → N.live = true) (hpl : p = true → l = true) :
    Inv { S with nodes := S.nodes.set t ⟨⟨N.path, N.uniq, p, l, N.lo, N.len, N.im⟩, N.cell⟩ } := by
  generalize hN' : (⟨⟨N.path, N.uniq, p, l, N.lo, N.len, N.im⟩, N.cell⟩ : Node) = N'
  have hget : ∀ {i : Nat} {M' : Node}, (S.nodes.set t N')[i]? = some M' → ∃ M, S.nodes[i]? = some M ∧ M'.path = M.path ∧ M'.uniq = M.uniq ∧ M'.cell = M.cell ∧
      (M'.live = true → M.live = true) ∧ (M'.prot = true → M.prot = true ∧ M'.live = true) ∧ M'.lo = M.lo ∧ M'.len = M.len ∧ M'.im = M.im := by
    intro i M' h
    by_cases hit : i = t
    · subst hit
      rw [List.getElem?_set_self (List.getElem?_eq_some_iff.mp hN).1] at h
      cases h
      subst hN'
      exact ⟨N, hN, rfl, rfl, rfl, hl, fun h => ⟨hp h, hpl h⟩, rfl, rfl, rfl⟩
    · rw [List.getElem?_set_ne (fun h => hit h.symm)] at h
      exact ⟨M', h, rfl, rfl, rfl, id, fun h' => ⟨h', hi.prot i M' h h'⟩, rfl, rfl, rfl⟩
  have hput : ∀ {i : Nat} {M : Node}, S.nodes[i]? = some M → ∃ M', (S.nodes.set t N')[i]? = some M' ∧ M'.path = M.path ∧ M'.uniq = M.uniq ∧ M'.im = M.im := by
    intro i M h
    by_cases hit : i = t
    · subst hit
      rw [hN] at h; cases h
      refine ⟨N', List.getElem?_set_self (List.getElem?_eq_some_iff.mp hN).1, ?_⟩
      subst hN'; exact ⟨rfl, rfl, rfl⟩
    · exact ⟨M, by rw [List.getElem?_set_ne (fun h => hit h.symm)]; exact h, rfl, rfl, rfl⟩
  have has : ∀ {A B : Node} {x : Nat}, A.lo = B.lo → A.len = B.len → (A.Has x ↔ B.Has x) := by
    intro A B x h1 h2; unfold Tag.Has; rw [h1, h2]
  have hmu : ∀ {M' M : Node} {x : Nat}, M'.path = M.path → Tree.Mutable { S with nodes := S.nodes.set t N' } M'.toTag x → S.Mutable M.toTag x := by
    intro M' M x hpath hm
    refine Mutable.congr (N' := M.toTag) (N := M'.toTag) hpath.symm ?_ hm
    intro j K _ hK
    obtain ⟨A, hA, rfl⟩ := tag_some hK
    obtain ⟨A', hA', -, e1, e2⟩ := hput hA
    exact ⟨A'.toTag, tag_eq (S := { S with nodes := S.nodes.set t N' }) hA', e1.symm, e2.symm⟩
  constructor
  · intro i M h
    obtain ⟨M0, h0, e, -⟩ := hget h
    rw [e]; exact hi.own i M0 h0
  · intro i M j h hj
    obtain ⟨M0, h0, e, e2, -⟩ := hget h
    rw [e] at hj
    obtain ⟨K, hK, h1, h2⟩ := hi.anc i M0 j h0 hj
    obtain ⟨K', hK', e3, e4, -⟩ := hput hK
    exact ⟨K', hK', by rw [e, e3]; exact h1, by rw [e2, e4]; exact h2⟩
  · intro i M j k h hj hk A K hA hK
    obtain ⟨M0, h0, e, -⟩ := hget h
    obtain ⟨A0, hA0, eA, -⟩ := hget hA
    obtain ⟨K0, hK0, eK, -⟩ := hget hK
    rw [e] at hj hk
    rw [eA, eK]
    exact hi.lin i M0 j k h0 hj hk A0 K0 hA0 hK0
  · intro i j A K x hA hK hl hl' hx hx' hu
    obtain ⟨A0, hA0, eA, uA, -, lA, -, b1, b2, -⟩ := hget hA
    obtain ⟨K0, hK0, eK, uK, -, lK, -, c1, c2, -⟩ := hget hK
    rw [uA, uK] at hu
    rw [eA, eK]
    exact hi.rel i j A0 K0 x hA0 hK0 (lA hl) (lK hl') ((has b1 b2).mp hx) ((has c1 c2).mp hx') hu
  · intro i j A K hA hK h1 h2
    obtain ⟨A0, hA0, eA, -⟩ := hget hA
    obtain ⟨K0, hK0, eK, -⟩ := hget hK
    rw [eA] at h2; rw [eK] at h1
    exact hi.asym i j A0 K0 hA0 hK0 h1 h2
  · intro i j k A M K x hA hM hK h1 h2 h3 h4 h5 h6 h7 h8
    obtain ⟨A0, hA0, eA, uA, -, lA, -, b1, b2, -⟩ := hget hA
    obtain ⟨M0, hM0, eM, uM, -, lM, -, c1, c2, -⟩ := hget hM
    obtain ⟨K0, hK0, eK, uK, -⟩ := hget hK
    rw [eA, eK]
    exact hi.relIM i j k A0 M0 K0 x hA0 hM0 hK0 (lA h1) (lM h2) (uM ▸ h3) ((has b1 b2).mp h4) ((has c1 c2).mp h5) (hmu eM h6) (eM ▸ h7) (uK ▸ h8)
  · intro i A x hA hu
    obtain ⟨A0, hA0, eA, uA, cA, lA, -, b1, b2, b3⟩ := hget hA
    rw [cA, b3]
    exact hi.shr i A0 x hA0 (uA ▸ hu)
  · intro i A x j K hA hl hm hx hj hK
    obtain ⟨A0, hA0, eA, uA, -, lA, -, b1, b2, -⟩ := hget hA
    obtain ⟨K0, hK0, eK, uK, cK, -⟩ := hget hK
    rw [cK]
    exact hi.imOk i A0 x j K0 hA0 (lA hl) (hmu eA hm) ((has b1 b2).mp hx) (eA ▸ hj) hK0
  · intro i A x j K hA hl hx hj hK
    obtain ⟨A0, hA0, eA, uA, -, lA, -, b1, b2, -⟩ := hget hA
    obtain ⟨K0, hK0, eK, uK, cK, -⟩ := hget hK
    rw [cK]
    exact hi.liveOk i A0 x j K0 hA0 (lA hl) ((has b1 b2).mp hx) (eA ▸ hj) hK0
  · intro i A hA hp
    obtain ⟨A0, hA0, eA, uA, -, lA, pA, -⟩ := hget hA
    exact (pA hp).2
  · intro i A x hA hp ha
    obtain ⟨A0, hA0, eA, uA, cA, lA, pA, b1, b2, -⟩ := hget hA
    rw [cA] at ha
    exact (has b1 b2).mpr (hi.acc i A0 x hA0 (pA hp).1 ha)
  · intro i A x hA ha
    obtain ⟨A0, hA0, eA, uA, cA, lA, pA, b1, b2, -⟩ := hget hA
    rw [cA] at ha ⊢
    rw [uA]
    exact hi.act i A0 x hA0 ha
  · intro i A j K x hA hl hj hK hl' hx
    obtain ⟨A0, hA0, eA, uA, -, lA, -, b1, b2, -⟩ := hget hA
    obtain ⟨K0, hK0, eK, uK, cK, lK, -, c1, c2, -⟩ := hget hK
    exact (has c1 c2).mpr (hi.sub i A0 j K0 x hA0 (lA hl) (eA ▸ hj) hK0 (lK hl') ((has b1 b2).mp hx))
  · intro i A hA
    obtain ⟨A0, hA0, eA, uA, -, lA, -, b1, b2, -⟩ := hget hA
    rw [b1, b2]; exact hi.inb i A0 hA0

theorem kill_ok (hi : Inv S) {M : Tag} (h : S.tag t = some M) (hp : M.prot = false) :
    ∃ S', kill t S = some ((), S') ∧ Inv S' ∧ S'.size = S.size ∧ S'.tags = S.tags.set t { M with live := false } := by
  obtain ⟨N, hN, rfl⟩ := tag_some h
  refine ⟨{ S with nodes := S.nodes.set t { N with live := false } }, by simp [kill, update, hN], ?_, rfl, ?_⟩
  · have := hi.set hN (p := N.prot) (l := false) id (by simp) (by simp [hp])
    exact this
  · simp [Tree.tags, List.map_set]

theorem ret_ok (hi : Inv S) {M : Tag} (h : S.tag t = some M) (hp : M.prot = true) :
    ∃ S', ret t S = some ((), S') ∧ Inv S' ∧ S'.size = S.size ∧ S'.tags = S.tags.set t { M with live := false, prot := false } := by
  obtain ⟨N, hN, rfl⟩ := tag_some h
  have hok : TouchOk S t N true (fun x => if (N.cell x).acc && !decide ((N.cell x).perm = .cell) then some (decide ((N.cell x).perm = .active)) else none) := by
    refine ⟨hN, hi.prot t N hN hp, ?_, ?_, ?_, ?_⟩
    · intro x wr hs
      split at hs
      · rename_i ha
        rw [Bool.and_eq_true] at ha
        exact hi.acc t N x hN hp ha.1
      · cases hs
    · intro x hs
      split at hs
      · simp only [Option.some.injEq, decide_eq_true_eq] at hs
        exact .inl (hi.act t N x hN hs).1
      · cases hs
    · intros; rfl
    · intros; rfl
  obtain ⟨S1, h1, h2⟩ := hok.touch hi
  have hi1 := hok.inv hi h2
  obtain ⟨N1, hN1, e1⟩ := h2.back t N hN
  have hi2 := hi1.set hN1 (p := false) (l := N1.live) (by simp) id (by simp)
  have hlt : t < S1.nodes.length := (List.getElem?_eq_some_iff.mp hN1).1
  obtain ⟨S3, h3, h4, h5, h6⟩ := kill_ok (t := t) hi2 (M := { N1.toTag with prot := false }) (by
    simp only [Tree.tag, List.getElem?_set_self hlt]; rfl) rfl
  refine ⟨S3, ?_, h4, by rw [h5]; exact h2.size, ?_⟩
  · have hrel : release t S = some ((), { S1 with nodes := S1.nodes.set t { N1 with prot := false } }) := by
      unfold release
      rw [hN]
      dsimp only
      rw [h1]
      dsimp only [update]
      rw [hN1]
    exact (bind_some hrel).trans h3
  · rw [h6, ← h2.tags]
    simp only [Tree.tags, List.map_set, List.set_set]
    rw [e1]

end Varlen.TB
