import Verif.Proofs.ClientSteps
import Verif.Props.SeqIndex
import Verif.Props.Moves
/-!
# C56: whole programs

The theorems here are about every world a program gets to (`Reach`), whatever it does with any number of boxes, owned values and sequences of any types. See `Spec/Client.lean` for the rules.
-/
namespace Varlen
variable {w : Nat} {W : World w}

theorem Handle.Ok.intact (hw : 8 ≤ w) {s : St} {h : Handle w} (hk : h.Ok s) : h.Intact s := by
  cases h with
  | box T p v => exact hk.2
  | owned T p v => exact hk.2.1
  | seq chk T q h t =>
    obtain ⟨hT, m, hh⟩ := hk
    obtain ⟨h1, h2⟩ := C19_seq_is_list hT hw hh
    refine ⟨h1, ?_, fun o v hm => ?_, fun hc o v hm => ?_, fun hc ht o hn => ?_⟩
    · obtain ⟨ps, it, e1, e2, e3⟩ := h2 h.length
      rw [List.take_of_length_le (by simp)] at e2
      exact ⟨ps, it, by rw [List.length_map]; exact e1, e3 (Nat.le_refl _), e2.1, e2.2⟩
    · obtain ⟨i, hi⟩ := List.mem_iff_getElem?.1 hm
      obtain ⟨p, e1, e2, _⟩ := C20_offset_names_element hT hw hh hi
      exact ⟨p, e1, e2⟩
    · subst hc
      exact (C22_elements_are_valid hT hw hh hm).2
    · subst hc ht
      rcases C24_from_offset_safe_partial hT hw hh o with ⟨p, v, _, hm, _⟩ | ⟨e, _⟩
      · exact absurd hm (hn v)
      · exact e
  | drain chk T q items it =>
    obtain ⟨h1, xs, ys, h2⟩ := hk
    refine ⟨?_, fun i hi => ?_, fun it0 vs e => ?_⟩
    · obtain ⟨m, hh⟩ := h2.hist
      exact (C19_seq_is_list h1 hw hh).1
    · rw [h2.items] at hi
      obtain ⟨x, hx, rfl⟩ := List.mem_map.1 hi
      exact ⟨_, h2.valid x (by simp [hx])⟩
    · obtain ⟨rfl, cur, fin, h3, h4⟩ := h2.iter it0 vs e
      obtain ⟨it', cur', e1, e2⟩ := Iter.take_spec h1.lawful hw ys.length h3
      rw [List.drop_length] at e2
      refine ⟨_, it', by rw [List.length_map]; exact e1, Iter.next_nil e2, by simp, fun i p v hp hv => ?_⟩
      simp only [List.take_length, List.getElem?_map, Option.map_eq_some_iff] at hp hv
      obtain ⟨x, hx, rfl⟩ := hp
      obtain ⟨y, hy, rfl⟩ := hv
      rw [hx] at hy; cases hy
      exact ⟨_, h3.valid x (List.mem_of_getElem? hx)⟩

/-- Whatever a program has done so far, and whatever it does next: the only undefined behaviour there can be is that of `VBox::new`, which uses the result of `alloc` without checking it, and calls it for
values of size zero (C42). -/
theorem C56_defined (hw : 8 ≤ w) (hr : Reach W) {k : UB} (hs : Step W (.ub k)) :
    (k = .nullPtr ∨ k = .allocZero) ∧ ∃ (A : Allocator) (T : VarLen w) (I : Init w), VBox.new A T I W.st = .ub k := by
  rcases hs.sound hw (hr.inv hw) with ⟨k', h1, h2, h3⟩ | ⟨W', h, _⟩
  · cases h2
    exact ⟨h1.symm, h3⟩
  · cases h

/-- … so a step other than a `VBox::new` (of a value of size zero, or without memory) is always defined. -/
theorem C56_next (hw : 8 ≤ w) (hr : Reach W) {o : Outcome w} (hs : Step W o) : (∃ W', o = .next W' ∧ Reach W') ∨ (∃ k, o = .ub k ∧ (k = .nullPtr ∨ k = .allocZero)) := by
  cases o with
  | next W' => exact .inl ⟨W', rfl, .step hr hs⟩
  | ub k => exact .inr ⟨k, rfl, (C56_defined hw hr hs).1⟩

/-- Every object the program holds is intact, at every moment: whatever it did with the other objects. -/
theorem C56_intact (hw : 8 ≤ w) (hr : Reach W) : ∀ h ∈ W.objs, h.Intact W.st := fun h hh => ((hr.inv hw).ok h hh).intact hw

/-- No two objects share an allocation (`0` stands for none), and none is in memory of the program's own. -/
theorem C56_apart (hw : 8 ≤ w) (hr : Reach W) : W.objs.Pairwise (fun a b => a.blk = b.blk → a.blk = 0) ∧ ∀ h ∈ W.objs, ¬ W.ext h.blk := ⟨(hr.inv hw).apart, (hr.inv hw).foreign⟩

/-- No value is ever destroyed twice: the destructors that have run, together with those still owed for the values in objects, are among those of the values that came into existence. -/
theorem C56_at_most_once (hw : 8 ≤ w) (hr : Reach W) : AtMost (W.st.log ++ W.objs.flatMap Handle.drops) W.made := fun e => by
  rw [List.count_append]; exact (hr.inv hw).once e

/-- And none is lost: unless the program forgot objects, or its own code panicked while a value was being built, every value that came into existence has been destroyed or is in an object. -/
theorem C56_exactly_once (hw : 8 ≤ w) (hr : Reach W) (hl : W.lost = false) : (W.st.log ++ W.objs.flatMap Handle.drops).Perm W.made :=
  List.perm_iff_count.2 fun e => by rw [List.count_append]; exact (hr.inv hw).exact hl e

/-- In particular, once a program has dropped all its objects, every value has been destroyed exactly once. -/
theorem C56_all_destroyed (hw : 8 ≤ w) (hr : Reach W) (hl : W.lost = false) (h0 : W.objs = []) : W.st.log.Perm W.made := by
  have := C56_exactly_once hw hr hl
  rwa [h0, List.flatMap_nil, List.append_nil] at this

/-- Memory is not lost either: unless the program forgot objects, or its own code panicked inside `VBox::new` (C53), every live allocation is that of an object, or the program's own. -/
theorem C56_no_leak (hw : 8 ≤ w) (hr : Reach W) (hl : W.leak = false) {b : Nat} {B : Block} (hb : W.st.blk b = some B) (hlive : B.live = true) : W.ext b ∨ ∃ h ∈ W.objs, h.blk = b :=
  (hr.inv hw).noLeak hl b B hb hlive

/-! ## The rules can be used: initializers from held objects -/

/-- A held box is an initializer. -/
theorem Arg.vbox (hw : 8 ≤ w) (hr : Reach W) {T : VarLen w} {p : Ptr} {v : V} (hm : Handle.box T p v ∈ W.objs) : ∃ l, Arg W T (VBox.init T p v l) [.box T p v] [] [] := by
  obtain ⟨hT, l, hb⟩ := (hr.inv hw).ok _ hm
  refine ⟨l, .vbox hT, hb, ⟨T.drops v, .vbox (.user hT.lawful), by simp [Handle.drops]⟩, by simp [Handle.isBox], ?_, ?_⟩
  · rintro b rfl
    exact .inr ⟨_, List.mem_singleton_self _, rfl⟩
  · intro h hh _
    rw [List.mem_singleton.1 hh]
    rfl

namespace Demo

theorem arrInit_accounts (xs : List Nat) (hx : ∀ x ∈ xs, x < 2 ^ 32) : Accounts ArrT (arrInit xs) xs [] := by
  have h : Accounts ArrT (arrInit xs) ((xs.map d4).map D4.dtor).flatten [] := .sized .moveFrom
  rwa [dtors xs hx] at h

theorem arrInit_arg (W : World 64) (xs : List Nat) (hx : ∀ x ∈ xs, x < 2 ^ 32) : Arg W ArrT (arrInit xs) [] xs [] :=
  ⟨arrInit_lib xs, trivial, ⟨xs, arrInit_accounts xs hx, .refl _⟩, by simp, by simp [SizedInit, MoveFrom], by simp⟩

/-- A program: a box of `[1, 2, 3]`; a sequence; `[4]` is pushed; the box is moved into the sequence. -/
def cBox : Ptr := result ⟨0, 0⟩ (VBox.new alloc ArrT (arrInit [1, 2, 3])) st0
def cs1 : St := Demo.after (VBox.new alloc ArrT (arrInit [1, 2, 3])) st0
def cσ2 : St × SeqS 64 := Demo.after (pushD [4]) (cs1, Seq.new ArrT)
def cLay : Layout 64 := .array 4 3 16
abbrev cBoxInit : Init 64 := VBox.init ArrT cBox (elem [1, 2, 3]) cLay
def cσ3 : St × SeqS 64 := Demo.after (Seq.push alloc true ArrT cBoxInit) cσ2
/-- `take_elems`, one `next`, drop the item, drop the iterator, drop the sequence. -/
def cit : IterS 64 := result ⟨⟨0, 0⟩, 0⟩ (Seq.takeElems true ArrT) cσ3
def cσ4 : St × SeqS 64 := Demo.after (Seq.takeElems true ArrT) cσ3
def cnext : Option Ptr × IterS 64 := result (none, ⟨⟨0, 0⟩, 0⟩) (Iter.next ArrT cit) cσ4.1
def cs5 : St := Demo.after (Iter.next ArrT cit) cσ4.1
def citem : Ptr := cnext.1.getD ⟨0, 0⟩
def cs6 : St := Demo.after (Owned.drop ArrT citem) cs5
def cs7 : St := Demo.after (OwnedElems.drop ArrT cnext.2) cs6
def cσ8 : St × SeqS 64 := Demo.after (Seq.drop true ArrT) (cs7, cσ4.2)

theorem step_ok {α : Type} {W : World 64} {r : Res St α} {ok : α → St → World 64} {panic : St → World 64} {a : α} {s : St} (h : Step W (Varlen.after r ok panic)) (e : r = .ok a s) :
    Step W (.next (ok a s)) := by
  subst e; exact h

theorem step_okQ {α : Type} {W : World 64} {r : Res (St × SeqS 64) α} {ok : α → St → SeqS 64 → World 64} {panic : St → SeqS 64 → World 64} {a : α} {σ : St × SeqS 64}
    (h : Step W (Varlen.afterQ r ok panic)) (e : r = .ok a σ) : Step W (.next (ok a σ.1 σ.2)) := by
  subst e; exact h

/-- A world of this program; all its memory is the library's. -/
abbrev World.own (s : St) (objs : List (Handle 64)) (made : List Event) (E : Nat → Prop) : World 64 := ⟨s, objs, made, false, false, E⟩

abbrev boxH : Handle 64 := .box ArrT cBox (elem [1, 2, 3])

theorem client1 : ∃ E, Reach (World.own cs1 [boxH] [1, 2, 3] E) :=
  ⟨_, .step (.start st0) (step_ok (.newBox alloc (moved := []) (rest := []) (.refl _) (arrInit_arg (World.start 64 st0) [1, 2, 3] (by decide)))
    (run_eq ⟨0, 0⟩ (VBox.new alloc ArrT (arrInit [1, 2, 3])) st0 (by decide +kernel)))⟩

theorem push_reach {s : St} {q : SeqS 64} {h h' : List (BitVec 64 × V)} {rest moved : List (Handle 64)} {made made' own : List Event} {E : Nat → Prop} {I : Init 64} {σ' : St × SeqS 64}
    (hr : Reach (World.own s (.seq true ArrT q h false :: moved ++ rest) made E)) (ha : Arg (World.own s (.seq true ArrT q h false :: moved ++ rest) made E) ArrT I moved own [])
    (hfp : ¬ I.fp q.ptr.blk) (hz : ∀ l, I.lay = some l → 0 < l.size.toNat) (e : Seq.push alloc true ArrT I (s, q) = .ok () σ')
    (hh : h' = h ++ [(Seq.offset q, I.value)]) (hm : made' = made ++ own) : ∃ E', Reach (World.own σ'.1 (.seq true ArrT σ'.2 h' false :: rest) made' E') := by
  subst hh hm
  have hs := Reach.step hr (step_okQ (.push alloc (.refl _) ha hfp hz) e)
  rw [List.append_nil] at hs
  exact ⟨_, hs⟩

theorem offset_new : Seq.offset (Seq.new ArrT) = 0 := by decide +kernel

theorem client2 : ∃ E, Reach (World.own cσ2.1 [.seq true ArrT cσ2.2 [(0, elem [4])] false, boxH] [1, 2, 3, 4] E) := by
  obtain ⟨E, h⟩ := client1
  have h : Reach (World.own cs1 (.seq true ArrT (Seq.new ArrT) [] false :: [] ++ [boxH]) [1, 2, 3] E) := Reach.step h (.newSeq true ArrT_lib)
  exact push_reach (I := arrInit [4]) h (arrInit_arg _ [4] (by decide)) (fun h => h) (by decide +kernel) (run_unit (pushD [4]) (cs1, Seq.new ArrT) (by decide +kernel))
    (by rw [offset_new]; rfl) rfl

/-- The size, and size of the parts, of an array layout. -/
def arrLay : Layout 64 → Option (BitVec 64 × BitVec 64 × BitVec 64)
  | .array a b c => some (a, b, c)
  | _ => none

theorem arrLay_eq {l : Layout 64} {a b c : BitVec 64} (h : arrLay l = some (a, b, c)) : l = .array a b c := by
  cases l <;> simp [arrLay] at h
  obtain ⟨rfl, rfl, rfl⟩ := h
  rfl

theorem cBox_arg (E : Nat → Prop) (h : Reach (World.own cσ2.1 [.seq true ArrT cσ2.2 [(0, elem [4])] false, boxH] [1, 2, 3, 4] E)) :
    Arg (World.own cσ2.1 [.seq true ArrT cσ2.2 [(0, elem [4])] false, boxH] [1, 2, 3, 4] E) ArrT cBoxInit [boxH] [] [] := by
  obtain ⟨l, ha⟩ := Arg.vbox (by decide) h (T := ArrT) (p := cBox) (v := elem [1, 2, 3]) (by simp)
  have hb : BoxHas ArrT cσ2.1 cBox (elem [1, 2, 3]) l := ha.usable
  have hc := ArrT_lib.lawful.calc_ok _ _ _ _ hb.valid
  have hl : (okOf (ArrT.calculateLayout cBox cσ2.1)).bind (fun r => arrLay r.1) = some (4, 3, 16) := by decide +kernel
  rw [hc] at hl
  have := arrLay_eq hl
  subst this
  exact ha

/-- The box has been moved into the sequence; its memory is free. -/
theorem client3 : ∃ E, Reach (World.own cσ3.1 [.seq true ArrT cσ3.2 [(0, elem [4]), (2, elem [1, 2, 3])] false] [1, 2, 3, 4] E) := by
  obtain ⟨E, h⟩ := client2
  have hoff : Seq.offset cσ2.2 = 2 := by decide +kernel
  have hb : cσ2.2.ptr.blk = 2 ∧ cBox.blk = 1 := by decide +kernel
  refine push_reach (I := cBoxInit) (moved := [boxH]) (own := []) h (cBox_arg E h) ?_ ?_ (run_unit (Seq.push alloc true ArrT cBoxInit) cσ2 (by decide +kernel)) (by rw [hoff]; rfl) rfl
  · show ¬ (cσ2.2.ptr.blk = cBox.blk)
    rw [hb.1, hb.2]; decide
  · intro l hl
    cases hl
    decide

theorem next_reach {s s' : St} {q : SeqS 64} {it it' : IterS 64} {v : V} {vs : List V} {made : List Event} {E : Nat → Prop} {p : Ptr}
    (hr : Reach (World.own s [.drain true ArrT q [] (some (it, v :: vs))] made E)) (e : Iter.next ArrT it s = .ok (some p, it') s') :
    Reach (World.own s' [.drain true ArrT q [(p, v)] (some (it', vs))] made E) := by
  have hs := step_ok (Step.nextItem (W := World.own s [.drain true ArrT q [] (some (it, v :: vs))] made E) (rest := []) (.refl _)) e
  exact .step hr hs

/-- One item has been obtained from `take_elems`. -/
theorem client4 : ∃ E, Reach (World.own cs5 [.drain true ArrT cσ4.2 [(citem, elem [4])] (some (cnext.2, [elem [1, 2, 3]]))] [1, 2, 3, 4] E) := by
  obtain ⟨E, h⟩ := client3
  have h := Reach.step h (step_okQ (.takeElems (rest := []) (.refl _)) (run_eq ⟨⟨0, 0⟩, 0⟩ (Seq.takeElems true ArrT) cσ3 (by decide +kernel)))
  have e := run_eq (none, ⟨⟨0, 0⟩, 0⟩) (Iter.next ArrT cit) cσ4.1 (by decide +kernel)
  have hp : cnext.1 = some citem := by decide +kernel
  exact ⟨E, next_reach h (e.trans (by rw [← hp]; rfl))⟩

/-- The item, then the iterator with the remaining value, then the sequence have been dropped. -/
theorem client5 : ∃ E, Reach (World.own cσ8.1 [] [1, 2, 3, 4] E) := by
  obtain ⟨E, h⟩ := client4
  have h := Reach.step h (step_ok (.dropItem (rest := []) (.refl _) (.refl _)) (run_unit (Owned.drop ArrT citem) cs5 (by decide +kernel)))
  have h := Reach.step h (step_ok (.dropIter (rest := []) (.refl _)) (run_unit (OwnedElems.drop ArrT cnext.2) cs6 (by decide +kernel)))
  have h := Reach.step h (.endDrain (rest := []) (.refl _))
  exact ⟨E, .step h (step_okQ (.dropSeq (rest := []) (.refl _)) (run_unit (Seq.drop true ArrT) (cs7, cσ4.2) (by decide +kernel)))⟩

-- what the theorems say about it, and what has happened: all destructors ran once, all memory is freed
example : cσ8.1.log = [4, 1, 2, 3] ∧ cσ8.1.blocks.map (·.live) = [false, false] := by constructor <;> decide +kernel
example : cσ8.1.log.Perm [1, 2, 3, 4] := by
  obtain ⟨E, h⟩ := client5
  exact C56_all_destroyed (by decide) h rfl rfl

end Demo

end Varlen
