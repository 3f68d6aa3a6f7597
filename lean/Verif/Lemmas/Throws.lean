import Verif.Lemmas.Refine
import Verif.Lemmas.Fair
/-!
# What documented uses throw

`COp.Throws` and `Op.Throws`: the exceptions an operation may throw, given the contents of the collections.
-/

namespace PolyColl
open Prog Spec

/-- Number of elements of type `t` in a sequence. -/
def share {V : Type} (t : Ty) (l : List (Ty × V)) : Nat := (l.filter fun p => p.1 = t).length

theorem share_take {V : Type} {t : Ty} {v : V} {l : List (Ty × V)} {j : Nat} (h : l[j]? = some (t, v)) : share t (l.take j) + 1 ≤ share t l := by
  have h1 := List.getElem?_eq_some_iff.1 h
  obtain ⟨hj, h1⟩ := h1
  have : l = l.take j ++ (t, v) :: l.drop (j + 1) := by
    rw [← h1, List.getElem_cons_drop, List.take_append_drop]
  unfold share
  conv => rhs; rw [this]
  rw [List.filter_append, List.length_append, List.filter_cons_of_pos (by simp), List.length_cons]
  omega

/-- A type is named that is not registered. -/
def Unknown {V : Type} (s : State V) (t : Ty) (e : Exc) : Prop := e = .unregistered t ∧ t ∉ s.types

/-- Exceptions of inserting `m` elements of type `t`; `copies`: copies of what is given. -/
def Env.AddExc {V : Type} (E : Env V) (s : State V) (t : Ty) (copies : Prop) (m : Nat) (e : Exc) : Prop :=
  ExcFrom E t copies (E.TooMany t ((s.elemsOf t).length + m)) e

/-- Exceptions of `reserve(n)` for type `t`. -/
def Env.ReserveExc {V : Type} (E : Env V) (k : Kind) (t : Ty) (n : Nat) (e : Exc) : Prop :=
  ExcFrom E t False (E.maxSize t < n ∨ k = .split ∧ E.idxMaxSize < n + 1) e

namespace COp
variable {V : Type} (E : Env V)

/-- Exceptions of inserting `a` as the first of its type among `m`: besides those of insertion, its type may be unknown
unless it is that of the expression. -/
def ArgThrows (s : State V) (a : Arg V) (m : Nat) (e : Exc) : Prop :=
  E.AddExc s (E.tiTy a.dyn) a.src.copies m e ∨
    Unknown s (E.tiTy a.dyn) e ∧ ¬ (a.acc = true ∧ E.tiTy a.dyn = E.tiTy a.stat)

/-- How many of `as` have type `t`. -/
def count (t : Ty) (as : List (Arg V)) : Nat := (as.filter fun a => E.tiTy a.dyn = t).length

/-- What an operation on `c` may throw. -/
def Throws (c : Coll V) : COp V → Exc → Prop
  | registerTypes ts, e => ∃ t ∈ ts, ExcFrom E (E.tiTy t) False (E.TooMany (E.tiTy t) 1) e
  | lookup t, e | clearInfo t, e => Unknown c.abs (E.tiTy t) e
  | reserveAll n, e => ∃ t ∈ c.abs.types, E.ReserveExc c.kind t n e
  | reserveInfo t n, e => Unknown c.abs (E.tiTy t) e ∨ E.ReserveExc c.kind (E.tiTy t) n e
  | reserveT t n, e => ExcFrom E (E.tiTy t) False (E.TooMany (E.tiTy t) 1) e ∨ E.ReserveExc c.kind (E.tiTy t) n e
  | shrinkAll, e => ∃ t ∈ c.abs.types, ExcFrom E t False (c.ShrinkLong E t) e
  | shrinkInfo t, e => Unknown c.abs (E.tiTy t) e ∨ ExcFrom E (E.tiTy t) False (c.ShrinkLong E (E.tiTy t)) e
  | emplace t src, e | emplaceHint _ t src, e | emplacePosBase _ t src, e | emplacePosLocal _ t src, e =>
      E.AddExc c.abs (E.tiTy t) src.copies 1 e
  | insert a, e | insertHint _ a, e => ArgThrows E c.abs a 1 e
  | insertPosBase _ a, e | insertPosLocal _ a, e => E.AddExc c.abs (E.tiTy a.dyn) a.src.copies 1 e
  | insertRange as, e | insertHintRange _ as, e => ∃ a ∈ as, ArgThrows E c.abs a (count E (E.tiTy a.dyn) as) e
  | insertPosRangeBase _ as, e => ∃ a ∈ as, E.AddExc c.abs (E.tiTy a.dyn) (∃ b ∈ as, b.src.copies) as.length e
  | insertRangeTerminal _ t srcs, e | insertHintRangeTerminal _ _ t srcs, e | insertPosRangeLocal _ t srcs, e =>
      srcs ≠ [] ∧ E.AddExc c.abs (E.tiTy t) (∃ src ∈ srcs, src.copies) srcs.length e
  | erase _, e | eraseLocalBase _, e | eraseLocal _, e | eraseRange _ _, e | eraseLocalRangeBase _ _, e | eraseLocalRange _ _, e =>
      e = .user ∧ ∃ t ∈ c.abs.types, (E.traits t).nothrowAssign = false
  | apply _ _ a, e => e = .user ∧ a.nothrow = false
  | clearAll, _ | rebind _ _, _ => False

end COp

namespace Op
variable {V : Type} (E : Env V)

/-- Exceptions of inserting the elements `l` of another collection. -/
def FromThrows (s : State V) (l : List (Ty × V)) (e : Exc) : Prop :=
  ∃ t ∈ l.map Prod.fst, E.AddExc s t True (share t l) e

/-- What an operation on the collections of a program may throw. -/
def Throws (s : Sys V) : Op V → Exc → Prop
  | on i op, e => op.Throws E (s i) e
  | create _ _, _ | move _ _, _ | swap _ _, _ => False
  | fromRange _ _ as, e => ∃ a ∈ as, COp.ArgThrows E [] a (COp.count E (E.tiTy a.dyn) as) e
  | fromTerminal _ _ _ t srcs, e => srcs ≠ [] ∧ E.AddExc [] (E.tiTy t) (∃ src ∈ srcs, src.copies) srcs.length e
  | fromColl _ j _ f l, e => ∃ p q, (s j).At E f p ∧ (s j).At E l q ∧ FromThrows E [] ((s j).abs.between p q) e
  | fromLocalColl _ j _ f l, e => ∃ t a b, (s j).LAtB E f t a ∧ (s j).LAtB E l t b ∧ a < b ∧ E.AddExc [] t True (b - a) e
  | copy _ j, e | copyAl _ j _, e => Coll.CopyExc E (s j).abs e
  | assign i j, e => i ≠ j ∧ Coll.CopyExc E (s j).abs e
  | moveAl _ j al, e => (s j).map.al ≠ al ∧ Coll.MoveExc E (s j).abs e
  | moveAssign i j, e => i ≠ j ∧ ¬ E.pocma ∧ (s i).map.al ≠ (s j).map.al ∧ Coll.MoveExc E (s j).abs e
  | insertColl i j f l, e | insertHintColl i j _ f l, e => ∃ p q, (s j).At E f p ∧ (s j).At E l q ∧ FromThrows E (s i).abs ((s j).abs.between p q) e
  | insertLocalColl i j f l, e | insertHintLocalColl i j _ f l, e => ∃ t a b, (s j).LAtB E f t a ∧ (s j).LAtB E l t b ∧ a < b ∧
      E.AddExc (s i).abs t True (b - a) e

end Op

namespace Coll
variable {V : Type} {E : Env V}

theorem srcs_val (srcs : List (Src V)) (h : ∀ src ∈ srcs, src.ext = true) : ∃ vs : List V, srcs.map (Src.val Vec.nil) = vs.map some :=
  mapVals (f := Src.val Vec.nil) fun a ha => ext_val (h a ha)

theorem Adds.share {c c' : Coll V} {w w' : World} {p p' : State.Pos} {l : List (Ty × V)} (h : Adds E c w p l c' w' p')
    (hc : c.Inv E w) (t : Ty) : (c'.abs.elemsOf t).length = (c.abs.elemsOf t).length + PolyColl.share t l := by
  rw [(h.grown E hc).elems t]
  simp only [List.length_append, List.length_take, List.length_drop, List.length_map, PolyColl.share]
  omega

theorem count_typed (t : Ty) : ∀ (as : List (Arg V)) (vs : List V), as.length = vs.length → share t (typed E as vs) = COp.count E t as
  | [], _, _ => rfl
  | a :: as, [], h => by simp at h
  | a :: as, v :: vs, h => by
    have := count_typed t as vs (by simpa using h)
    unfold share COp.count typed at *
    simp only [List.zip_cons_cons, List.map_cons, List.filter_cons]
    split <;> rename_i hd <;> rw [decide_eq_true_eq] at hd
    · rw [List.length_cons, List.length_cons, this]
    · exact this

theorem SeqFail.throws {c c' : Coll V} {w w' : World} {p : State.Pos} {as : List (Arg V)} {vs : List V} {e : Exc}
    (h : SeqFail E c w p as vs e c' w') (hc : c.Inv E w) (hl : as.length = vs.length) :
    ∃ a ∈ as, COp.ArgThrows E c.abs a (COp.count E (E.tiTy a.dyn) as) e := by
  obtain ⟨j, c1, w1, p1, a, h1, h2, h3⟩ := h
  obtain ⟨hj, -⟩ := List.getElem?_eq_some_iff.1 h1
  refine ⟨a, List.mem_of_getElem? h1, ?_⟩
  rcases h3.exc E (h2.inv E hc).map with h | ⟨h, h', h''⟩
  · refine Or.inl (h.mono id fun h => h.mono E ?_)
    rw [h2.share hc, ← count_typed (E := E) _ as vs hl]
    have : (typed E as vs)[j]? = some (E.tiTy a.dyn, vs[j]'(hl ▸ hj)) := by
      simp [typed, List.getElem?_zip_eq_some, h1]
    have := share_take this
    omega
  · exact Or.inr ⟨⟨h, fun hm => h' (((h2.grown E hc).types _).2 (Or.inl hm))⟩, h''⟩

theorem FromFail.throws {c c' : Coll V} {w w' : World} {p : State.Pos} {l : List (Ty × V)} {e : Exc} (h : FromFail E c w p l e c' w')
    (hc : c.Inv E w) : Op.FromThrows E c.abs l e := by
  obtain ⟨j, c1, w1, p1, t, v, h1, h2, h3⟩ := h
  refine ⟨t, List.mem_map.2 ⟨(t, v), List.mem_of_getElem? h1, rfl⟩, ?_⟩
  refine (h3.exc E (h2.inv E hc).map).mono id (fun h => h.mono E ?_)
  rw [h2.share hc]
  have := share_take h1
  omega

theorem ArgFail.throws {c c' : Coll V} {w w' : World} {a : Arg V} {k : Nat} {e : Exc} (h : ArgFail E c w a k e c' w') (hc : c.Inv E w) :
    COp.ArgThrows E c.abs a 1 e := (h.exc E hc.map).imp id fun ⟨h1, h2, h3⟩ => ⟨⟨h1, h2⟩, h3⟩

theorem RangeFail.throws {c c' : Coll V} {w w' : World} {t : Ty} {n : Nat} {vs : List V} {copies : Prop} {e : Exc}
    (h : RangeFail E c w t n vs copies e c' w') (hc : c.Inv E w) : vs ≠ [] ∧ E.AddExc c.abs t copies vs.length e := by
  obtain ⟨j, c1, w1, hj, hi, hf⟩ := h
  refine ⟨fun h => by simp [h] at hj, (hf.exc E (hi.inv E hc).map).mono id (fun h => h.mono E ?_)⟩
  rw [(hi.put E hc.map).elemsOf (abs_nodup E hc.map), if_pos rfl]
  simp only [List.length_append, List.length_take, List.length_drop]
  omega

theorem RemFail.throws {c : Coll V} {w w' : World} {n : Node V} {s : Seg V} {e : Exc} (hn : n ∈ c.map.nodes) (h : Seg.RemFail E n.seg w e s w') :
    e = .user ∧ ∃ t ∈ c.abs.types, (E.traits t).nothrowAssign = false := ⟨h.exc, _, mem_types hn, h.throws⟩

theorem RangeErFail.throws {c c' : Coll V} {w w' : World} {t : Ty} {e : Exc} (h : RangeErFail E c w t e c' w') :
    e = .user ∧ ∃ t ∈ c.abs.types, (E.traits t).nothrowAssign = false := by
  obtain ⟨n, hn, -, s, -, h1, -⟩ := h
  exact RemFail.throws hn h1

theorem reserveFail_throws {c : Coll V} {w : World} (hc : c.Inv E w) {n : Node V} (hn : n ∈ c.map.nodes) {m : Nat} {s : Seg V} {e : Exc}
    (h : ReserveFail E m e n.seg s) : E.ReserveExc c.kind n.seg.ty m e := by
  have := h.exc
  rwa [hc.map.kind n hn] at this

/-- What a documented operation throws. -/
theorem op_throws (op : COp V) (c : Coll V) (w : World) (hc : c.Inv E w) (hp : op.Pre E c) :
    Runs (op.run E) c w (fun _ _ _ => True) (fun e _ _ => op.Throws E c e) := by
  have t : ∀ {α X : Type} {Q : α → X → World → Prop} (a : α) (x : X) (w : World), Q a x w → True := fun _ _ _ _ => trivial
  cases op with
  | registerTypes ts => exact (registerTypes_runs E ts c w hc).mono t fun _ _ _ h => h.2.2.2.1
  | lookup ti =>
    simp only [COp.run, runs_drop]
    refine (forInfo_runs E ti c w hc.map).mono t ?_
    rintro _ c' w' ⟨-, -, h, h'⟩
    exact ⟨h, types_of_nodes h'⟩
  | reserveAll n =>
    refine (reserveAll_runs E n c w hc).mono t ?_
    rintro e c' w' ⟨-, -, -, -, ⟨a, m, b, a', s, g1, g2, g3, g4⟩, -⟩
    have hm : m ∈ c.map.nodes := by rw [g1]; simp
    exact ⟨m.seg.ty, mem_types hm, reserveFail_throws hc hm g4⟩
  | reserveInfo ti n =>
    refine (reserveInfo_runs E ti n c w hc).mono t ?_
    rintro e c' w' (⟨-, -, h⟩ | ⟨-, -, -, -, m, hm, ht, s, -, h⟩)
    · exact .inl h
    · exact .inr (ht ▸ reserveFail_throws hc hm h)
  | reserveT ti n =>
    refine (reserveT_runs E ti n c w hc).mono t ?_
    rintro e c' w' (h | ⟨m, d, w1, s, h1, -, -, -, -, h, -⟩)
    · exact .inl h.exc
    · have := reserveFail_throws (h1.good E (stable_inv E) hc) (h1.mem E) h
      rw [h1.kind, h1.ty] at this
      exact .inr this
  | shrinkAll => exact (shrinkAll_runs E c w hc).mono t fun _ _ _ h => h.2.2.2.1
  | shrinkInfo ti =>
    refine (shrinkInfo_runs E ti c w hc).mono t ?_
    rintro e c' w' (⟨-, -, h⟩ | ⟨-, -, -, h, -⟩)
    · exact .inl h
    · exact .inr h
  | emplace ti src =>
    obtain ⟨v, hv⟩ := hp
    simp only [COp.run, runs_drop]
    exact (emplace_runs E ti src v c w hc hv).mono t fun _ _ _ h => h.exc E hc.map
  | emplaceHint hint ti src =>
    obtain ⟨⟨v, hv⟩, ⟨p, hh⟩, hok⟩ := hp
    simp only [COp.run, runs_drop]
    exact (emplaceHint_runs E hint p ti src v c w hc hv hh (hok.head E)).mono t fun _ _ _ h => h.exc E hc.map
  | emplacePosBase pos ti src =>
    obtain ⟨⟨v, hv⟩, k, hl⟩ := hp
    simp only [COp.run, runs_drop]
    exact (emplacePosBase_runs E pos ti k src v c w hc hl hv).mono t fun _ _ _ h => h.exc E hc.map
  | emplacePosLocal pos ti src =>
    obtain ⟨⟨v, hv⟩, k, hl⟩ := hp
    simp only [COp.run, runs_drop]
    exact (emplacePosLocal_runs E pos ti k src v c w hc hl hv).mono t fun _ _ _ h => h.exc E hc.map
  | insert a =>
    obtain ⟨ha, v, hv⟩ := hp
    simp only [COp.run, runs_drop]
    exact (insert_runs E a v ha c w hc hv).mono t fun _ _ _ h => h.throws hc
  | insertHint hint a =>
    obtain ⟨ha, ⟨v, hv⟩, ⟨p, hh⟩, hok⟩ := hp
    simp only [COp.run, runs_drop]
    exact (insertHint_runs E hint p a v ha c w hc hv hh (hok.head E)).mono t fun _ _ _ h => h.throws hc
  | insertPosBase pos a =>
    obtain ⟨-, ⟨v, hv⟩, k, hl⟩ := hp
    simp only [COp.run, runs_drop]
    exact (insertPosBase_runs E pos a k v c w hc hl hv).mono t fun _ _ _ h => h.exc E hc.map
  | insertPosLocal pos a =>
    obtain ⟨-, ⟨v, hv⟩, k, hl⟩ := hp
    simp only [COp.run, runs_drop]
    exact (insertPosLocal_runs E pos a k v c w hc hl hv).mono t fun _ _ _ h => h.exc E hc.map
  | insertRange as =>
    obtain ⟨vs, hv⟩ := types_val as (fun a ha => (hp a ha).2)
    have hlen : as.length = vs.length := by have := congrArg List.length hv; simpa using this
    exact (insertRange_runs E as vs c w hc hp hv).mono t fun _ _ _ h => h.throws hc hlen
  | insertRangeTerminal f ti srcs =>
    obtain ⟨vs, hv⟩ := srcs_val srcs hp
    have hlen : srcs.length = vs.length := by have := congrArg List.length hv; simpa using this
    by_cases hn : srcs = []
    · subst hn; exact trivial
    refine (insertRangeTerminal_runs E f ti srcs vs c w hc hp hv).mono t fun _ _ _ h => ⟨hn, ?_⟩
    have := List.length_pos_iff.2 hn
    have := h.exc E hc.map (by omega)
    rwa [← hlen] at this
  | insertHintRange hint as =>
    obtain ⟨⟨p, hh⟩, hok, ha⟩ := hp
    obtain ⟨vs, hv⟩ := types_val as (fun a h => (ha a h).2)
    have hlen : as.length = vs.length := by have := congrArg List.length hv; simpa using this
    simp only [COp.run, runs_drop]
    exact (insertHintRange_runs E as hint p vs c w hc hh hok ha hv).mono t fun _ _ _ h => h.throws hc hlen
  | insertHintRangeTerminal hint f ti srcs =>
    obtain ⟨⟨p, hh⟩, hok, ha⟩ := hp
    obtain ⟨vs, hv⟩ := srcs_val srcs ha
    have hlen : srcs.length = vs.length := by have := congrArg List.length hv; simpa using this
    by_cases hn : srcs = []
    · subst hn; exact trivial
    simp only [COp.run]
    refine (insertHintRangeTerminal_runs E hint p f ti srcs vs c w hc hh hok ha hv).mono t fun _ _ _ h => ⟨hn, ?_⟩
    have := List.length_pos_iff.2 hn
    have := h.exc E hc.map (by omega)
    rwa [← hlen] at this
  | insertPosRangeBase pos as =>
    obtain ⟨t0, k0, hl, ha⟩ := hp
    obtain ⟨vs, hv⟩ := types_val as (fun a h => (ha a h).2.2)
    have hlen : as.length = vs.length := by have := congrArg List.length hv; simpa using this
    simp only [COp.run, runs_drop]
    refine (insertPosRangeBase_runs E pos t0 k0 as vs (∃ b ∈ as, b.src.copies) c w hc hl
      (fun a h => ⟨(ha a h).2.1, (ha a h).2.2, fun h' => ⟨a, h, h'⟩⟩) hv).mono t fun e _ _ h => ?_
    obtain ⟨h1, h2⟩ := h.throws hc
    cases as with
    | nil => exact absurd (List.length_eq_zero_iff.1 hlen.symm) h1
    | cons a as =>
      refine ⟨a, by simp, ?_⟩
      rw [(ha a (by simp)).2.1, hlen]
      exact h2
  | insertPosRangeLocal pos ti srcs =>
    obtain ⟨k, hl, ha⟩ := hp
    obtain ⟨vs, hv⟩ := srcs_val srcs ha
    have hlen : srcs.length = vs.length := by have := congrArg List.length hv; simpa using this
    simp only [COp.run, runs_drop]
    refine (insertPosRangeLocal_runs E pos ti k srcs vs (∃ src ∈ srcs, src.copies) c w hc hl (fun a h => ⟨ha a h, fun h' => ⟨a, h, h'⟩⟩) hv).mono t
      fun _ _ _ h => ?_
    obtain ⟨h1, h2⟩ := h.throws hc
    refine ⟨fun h => h1 (List.length_eq_zero_iff.1 (by rw [← hlen, h]; rfl)), ?_⟩
    rw [hlen]
    exact h2
  | erase pos =>
    obtain ⟨ty, k, h⟩ := hp
    simp only [COp.run, runs_drop]
    refine (erase_runs E pos ty k c w hc h).mono t ?_
    rintro _ _ _ ⟨n, hn, -, -, s, -, h1, -⟩
    exact RemFail.throws hn h1
  | eraseLocalBase pos =>
    obtain ⟨ty, k, h, hk⟩ := hp
    simp only [COp.run, runs_drop]
    refine (eraseLocalBase_runs E pos ty k c w hc h hk).mono t ?_
    rintro _ _ _ ⟨n, hn, -, -, s, -, h1, -⟩
    exact RemFail.throws hn h1
  | eraseLocal pos =>
    obtain ⟨ty, k, h, hk⟩ := hp
    simp only [COp.run, runs_drop]
    refine (eraseLocal_runs E pos ty k c w hc h hk).mono t ?_
    rintro _ _ _ ⟨n, hn, -, -, s, -, h1, -⟩
    exact RemFail.throws hn h1
  | eraseRange f l =>
    obtain ⟨p, q, h1, h2, h3⟩ := hp
    simp only [COp.run, runs_drop]
    refine (eraseRange_runs E f l p q c w hc h1 h2 h3).mono t ?_
    rintro _ _ _ (@⟨s, d, _, w1, _, ty, h, f, -⟩)
    obtain ⟨a, b⟩ := f.throws
    exact ⟨a, h.types ▸ b⟩
  | eraseLocalRangeBase f l =>
    obtain ⟨ty, a, b, h1, h2, h3⟩ := hp
    simp only [COp.run, runs_drop]
    exact (eraseLocalRangeBase_runs E f l ty a b c w hc h1 h2 h3).mono t fun _ _ _ h => h.throws
  | eraseLocalRange f l =>
    obtain ⟨ty, a, b, h1, h2, h3⟩ := hp
    simp only [COp.run, runs_drop]
    exact (eraseLocalRange_runs E f l ty a b c w hc h1 h2 h3).mono t fun _ _ _ h => h.throws
  | clearAll => exact (clearAll_runs E c w (hc.core E)).mono t fun _ _ _ h => h.elim
  | clearInfo ti =>
    refine (clearInfo_runs E ti c w hc).mono t ?_
    rintro _ c' w' ⟨-, -, h⟩
    exact h
  | apply o p a =>
    obtain ⟨ty, k, hp⟩ := hp
    simp only [COp.run, runs_drop]
    exact (apply_runs o p a c w (hc.core E) hp).mono t fun _ _ _ h => ⟨h.1, h.2.1⟩
  | rebind p q =>
    obtain ⟨rfl, hk, ty, k, hp⟩ := hp
    exact (rebind_self_runs _ c w hc hk hp).mono t fun _ _ _ h => h.elim

variable {k : Kind}

/-- `op_throws` if operations with hints are not known to be defined. -/
theorem op_throws_apt (op : COp V) (c : Coll V) (w : World) (hc : c.Inv E w) (hp : op.Apt E c) :
    Leaves (op.run E) c w (fun _ _ _ => True) (fun e _ _ => op.Throws E c e) := by
  by_cases hpre : op.Pre E c
  · exact (op_throws op c w hc hpre).leaves
  cases op with
  | emplaceHint hint ti src =>
    obtain ⟨⟨v, hv⟩, p, hh⟩ := hp
    exact ((emplaceHint_ends E hint p ti src v c w hc hv hh).drop.mono (fun _ _ _ _ => trivial) (fun _ _ _ h => h.exc E hc.map) id).leaves
  | insertHint hint a =>
    obtain ⟨ha, ⟨v, hv⟩, p, hh⟩ := hp
    exact ((insertHint_ends E hint p a v ha c w hc hv hh).drop.mono (fun _ _ _ _ => trivial) (fun _ _ _ h => h.throws hc) id).leaves
  | insertHintRange hint as =>
    obtain ⟨⟨p, hh⟩, ha⟩ := hp
    obtain ⟨vs, hv⟩ := types_val as (fun a h => (ha a h).2)
    have hlen : as.length = vs.length := by have := congrArg List.length hv; simpa using this
    exact ((insertHintRange_ends E as hint p vs c w hc hh ha hv).drop.mono (fun _ _ _ _ => trivial) (fun _ _ _ h => h.throws hc hlen) id).leaves
  | insertHintRangeTerminal hint f ti srcs =>
    obtain ⟨⟨p, hh⟩, ha⟩ := hp
    obtain ⟨vs, hv⟩ := srcs_val srcs ha
    have hlen : srcs.length = vs.length := by have := congrArg List.length hv; simpa using this
    by_cases hn : srcs = []
    · subst hn; exact trivial
    refine ((insertHintRangeTerminal_ends E hint p f ti srcs vs c w hc hh ha hv).mono (fun _ _ _ _ => trivial) (fun _ _ _ h => ⟨hn, ?_⟩) id).leaves
    have := List.length_pos_iff.2 hn
    have := h.exc E hc.map (by omega)
    rwa [← hlen] at this
  | _ => exact absurd hp hpre

theorem slice_length {c : Coll V} {w : World} (hc : c.Inv E w) {f l : LIter} {t : Ty} {a b : Nat} (h1 : c.LAtB E f t a) (h2 : c.LAtB E l t b)
    (hab : a ≤ b) : (slice c.abs t a b).length = b - a := by
  have : b ≤ (c.abs.elemsOf t).length := by
    obtain ⟨n, hu, rfl, hk, -⟩ := h2
    rw [State.elemsOf_mem (abs_nodup E hc.map) (List.mem_map.2 ⟨n, hu.mem, rfl⟩)]
    exact hk
  simp only [slice, List.length_take, List.length_drop]
  omega

theorem fromThrows_local {s : State V} {t : Ty} {l : List V} {e : Exc} (h : Op.FromThrows E s (l.map fun v => (t, v)) e) :
    l ≠ [] ∧ E.AddExc s t True l.length e := by
  obtain ⟨u, hu, h⟩ := h
  simp only [List.map_map, List.mem_map, Function.comp] at hu
  obtain ⟨v, hv, rfl⟩ := hu
  refine ⟨List.ne_nil_of_mem hv, ?_⟩
  have : share t (l.map fun v => (t, v)) = l.length := by simp [share, List.filter_map]
  rwa [this] at h

/-- What a documented use of the collections of a program throws. -/
theorem run_throws {sub : Ty → TI} (hsub : ∀ t, E.tiTy (sub t) = t) (op : Op V) (s : Sys V) (w : World) (hs : SysHolds E k (fun _ => .sound) s w)
    (hp : op.Pre E s) : Runs (op.run E k sub) s w (fun _ _ _ => True) (fun e _ _ => op.Throws E s e) := by
  have hk : ∀ i, (s i).kind = k := fun i => (hs.1 i).kind E
  have hkk : ∀ i j, (s i).kind = (s j).kind := fun i j => (hk i).trans (hk j).symm
  have hi : ∀ i, (s i).Inv E w := fun i => (hs.sound E rfl).1
  have t : ∀ {α X : Type} {Q : α → X → World → Prop} (a : α) (x : X) (w : World), Q a x w → True := fun _ _ _ _ => trivial
  cases op with
  | on i op =>
    simp only [Op.run, Sys.on]
    rw [runs_zoom]
    exact op_throws op (s i) w (hi i) hp
  | create i al => exact trivial
  | fromRange i al as =>
    obtain ⟨vs, hv⟩ := types_val as (fun a ha => (hp a ha).2)
    have hlen : as.length = vs.length := by have := congrArg List.length hv; simpa using this
    simp only [Op.run, Sys.construct, runs_bind, runs_get, runs_set]
    refine (fromRange_runs E k al as vs s w hs.2 hp hv).mono t ?_
    rintro _ s' w' ⟨rfl, c, h⟩
    exact h.throws (empty_good E k al hs.2) hlen
  | fromTerminal i al fwd ti srcs =>
    obtain ⟨vs, hv⟩ := srcs_val srcs hp
    have hlen : srcs.length = vs.length := by have := congrArg List.length hv; simpa using this
    simp only [Op.run, Sys.construct, runs_bind, runs_get, runs_set]
    by_cases hn : srcs = []
    · subst hn; exact trivial
    refine (fromTerminal_runs E k al fwd ti srcs vs s w hs.2 hp hv).mono t ?_
    rintro _ s' w' ⟨rfl, c, h⟩
    have := List.length_pos_iff.2 hn
    have := h.exc E (empty_good E k al hs.2).map (by omega)
    rw [← hlen] at this
    exact ⟨hn, this⟩
  | fromColl i j al f l =>
    obtain ⟨hij, p, q, h1, h2, h3⟩ := hp
    simp only [Op.run, runs_bind, runs_get, runs_ite]
    refine ⟨fun e => absurd e hij, fun _ => ?_⟩
    simp only [Sys.construct, runs_bind, runs_get, runs_set]
    rw [← hk j]
    refine (fromColl_runs E hsub (s j) w (hi j) h1 h2 h3 al s w hs.2).mono t ?_
    rintro _ s' w' ⟨rfl, c, h⟩
    exact ⟨p, q, h1, h2, h.throws (empty_good E _ al hs.2)⟩
  | fromLocalColl i j al f l =>
    obtain ⟨hij, ty, a, b, h1, h2, h3⟩ := hp
    simp only [Op.run, runs_bind, runs_get, runs_ite]
    refine ⟨fun e => absurd e hij, fun _ => ?_⟩
    simp only [Sys.construct, runs_bind, runs_get, runs_set]
    rw [← hk j]
    refine (fromLocalColl_runs E hsub (s j) w (hi j) h1 h2 h3 al s w hs.2).mono t ?_
    rintro _ s' w' ⟨rfl, c, h⟩
    obtain ⟨g1, g2⟩ := fromThrows_local (h.throws (empty_good E _ al hs.2))
    have hl := slice_length (hi j) h1 h2 h3
    have := List.length_pos_iff.2 g1
    exact ⟨ty, a, b, h1, h2, by omega, hl ▸ g2⟩
  | copy i j =>
    simp only [Op.run, runs_bind, runs_get, runs_ite]
    refine ⟨fun e => absurd e hp, fun _ => ?_⟩
    simp only [Sys.construct, runs_bind, runs_get, runs_set]
    exact (copyAl_runs E (s j) _ s w (hi j).map hs.2).mono t fun _ _ _ h => h.2.2
  | copyAl i j al =>
    simp only [Op.run, runs_bind, runs_get, runs_ite]
    refine ⟨fun e => absurd e hp, fun _ => ?_⟩
    simp only [Sys.construct, runs_bind, runs_get, runs_set]
    exact (copyAl_runs E (s j) _ s w (hi j).map hs.2).mono t fun _ _ _ h => h.2.2
  | move i j =>
    simp only [Op.run, runs_ite]
    refine ⟨fun e => absurd e hp, fun _ => ?_⟩
    simp only [Sys.construct, Sys.on, runs_bind, runs_get, runs_set]
    rw [runs_zoom]
    exact (move_runs E (s j) w (hi j)).mono t fun _ _ _ h => h.elim
  | moveAl i j al =>
    simp only [Op.run, runs_ite]
    refine ⟨fun e => absurd e hp, fun _ => ?_⟩
    simp only [Sys.construct, Sys.on, runs_bind, runs_get, runs_set]
    rw [runs_zoom]
    exact (moveAl_runs E al (s j) w (hi j)).mono t fun _ _ _ h => ⟨h.2.1, h.2.2.1⟩
  | assign i j =>
    simp only [Op.run, runs_bind, runs_get, runs_ite]
    refine ⟨fun _ => trivial, fun hij => ?_⟩
    unfold Sys.on
    rw [runs_zoom]
    exact (assign_runs E (s j) (s i) w (hi j).map (hkk i j) hs.2).mono t fun _ _ _ h => ⟨hij, h.2.2.2.2.2⟩
  | moveAssign i j =>
    simp only [Op.run, runs_ite]
    refine ⟨fun _ => trivial, fun hij => ?_⟩
    unfold Sys.on2
    rw [runs_zoom]
    refine (moveAssign_runs E (s i) (s j) w (hi j) (hkk i j)).mono t ?_
    rintro _ p w' ⟨-, -, -, -, -, -, -, -, -, h⟩
    exact ⟨hij, h⟩
  | swap i j =>
    simp only [Op.run, runs_ite]
    refine ⟨fun _ => trivial, fun hij => ?_⟩
    unfold Sys.on2
    rw [runs_zoom]
    exact (swap_runs E (s i) (s j) w (hkk i j) (hp.resolve_left hij)).mono t fun _ _ _ h => h.elim
  | insertColl i j f l =>
    obtain ⟨hij, p, q, h1, h2, h3⟩ := hp
    simp only [Op.run, runs_bind, runs_get, runs_ite]
    refine ⟨fun e => absurd e hij, fun _ => ?_⟩
    unfold Sys.on
    rw [runs_zoom]
    exact (insertColl_runs E hsub (s j) w (hi j) h1 h2 h3 (s i) w (hi i) (hkk j i)).mono t fun _ _ _ h => ⟨p, q, h1, h2, h.throws (hi i)⟩
  | insertHintColl i j h f l =>
    obtain ⟨hij, ⟨p, q, h1, h2, h3⟩, ⟨x, hx⟩, hok⟩ := hp
    simp only [Op.run, runs_bind, runs_get, runs_ite]
    refine ⟨fun e => absurd e hij, fun _ => ?_⟩
    unfold Sys.on
    rw [runs_zoom, runs_drop]
    exact (insertHintColl_runs E hsub (s j) w (hi j) h1 h2 h3 h x (s i) w (hi i) (hkk j i) hx (hok.sub E between_types)).mono t
      fun _ _ _ h => ⟨p, q, h1, h2, h.throws (hi i)⟩
  | insertLocalColl i j f l =>
    obtain ⟨hij, ty, a, b, h1, h2, h3⟩ := hp
    simp only [Op.run, runs_bind, runs_get, runs_ite]
    refine ⟨fun e => absurd e hij, fun _ => ?_⟩
    unfold Sys.on
    rw [runs_zoom]
    refine (insertLocalColl_runs E hsub (s j) w (hi j) h1 h2 h3 (s i) w (hi i) (hkk j i)).mono t fun _ _ _ h => ?_
    obtain ⟨g1, g2⟩ := fromThrows_local (h.throws (hi i))
    have hl := slice_length (hi j) h1 h2 h3
    have := List.length_pos_iff.2 g1
    exact ⟨ty, a, b, h1, h2, by omega, hl ▸ g2⟩
  | insertHintLocalColl i j h f l =>
    obtain ⟨hij, ⟨ty, a, b, h1, h2, h3⟩, ⟨x, hx⟩, hok⟩ := hp
    have ht := latB_types E h1
    simp only [Op.run, runs_bind, runs_get, runs_ite]
    refine ⟨fun e => absurd e hij, fun _ => ?_⟩
    unfold Sys.on
    rw [runs_zoom, runs_drop]
    refine (insertHintLocalColl_runs E hsub (s j) w (hi j) h1 h2 h3 h x (s i) w (hi i) (hkk j i) hx (hok.sub E (by simpa using ht))).mono t fun _ _ _ h => ?_
    obtain ⟨g1, g2⟩ := fromThrows_local (h.throws (hi i))
    have hl := slice_length (hi j) h1 h2 h3
    have := List.length_pos_iff.2 g1
    exact ⟨ty, a, b, h1, h2, by omega, hl ▸ g2⟩

/-- `run_throws` if operations with hints are not known to be defined. -/
theorem run_throws_apt {sub : Ty → TI} (hsub : ∀ t, E.tiTy (sub t) = t) (op : Op V) (s : Sys V) (w : World)
    (hs : SysHolds E k (fun _ => .sound) s w) (hp : op.Apt E s) :
    Leaves (op.run E k sub) s w (fun _ _ _ => True) (fun e _ _ => op.Throws E s e) := by
  by_cases hpre : op.Pre E s
  · exact (run_throws hsub op s w hs hpre).leaves
  have hk : ∀ i, (s i).kind = k := fun i => (hs.1 i).kind E
  have hkk : ∀ i j, (s i).kind = (s j).kind := fun i j => (hk i).trans (hk j).symm
  have hi : ∀ i, (s i).Inv E w := fun i => (hs.sound E rfl).1
  cases op with
  | on i op =>
    simp only [Op.run, Sys.on]
    rw [leaves_zoom]
    exact op_throws_apt op (s i) w (hi i) hp
  | insertHintColl i j h f l =>
    obtain ⟨hij, ⟨p, q, h1, h2, h3⟩, x, hx⟩ := hp
    simp only [Op.run, leaves_bind, leaves_get, leaves_ite]
    refine ⟨fun e => absurd e hij, fun _ => ?_⟩
    unfold Sys.on
    rw [leaves_zoom]
    obtain ⟨items, -, -, he⟩ := insertHintColl_ends E hsub (s j) w (hi j) h1 h2 h3 h x (s i) w (hi i) (hkk j i) hx
    exact (he.drop.mono (fun _ _ _ _ => trivial) (fun _ _ _ h => ⟨p, q, h1, h2, h.throws (hi i)⟩) id).leaves
  | insertHintLocalColl i j h f l =>
    obtain ⟨hij, ⟨ty, a, b, h1, h2, h3⟩, x, hx⟩ := hp
    simp only [Op.run, leaves_bind, leaves_get, leaves_ite]
    refine ⟨fun e => absurd e hij, fun _ => ?_⟩
    unfold Sys.on
    rw [leaves_zoom]
    refine ((insertHintLocalColl_ends E hsub (s j) w (hi j) h1 h2 h3 h x (s i) w (hi i) (hkk j i) hx).drop.mono (fun _ _ _ _ => trivial)
      (fun _ _ _ h => ?_) id).leaves
    obtain ⟨g1, g2⟩ := fromThrows_local (h.throws (hi i))
    have hl := slice_length (hi j) h1 h2 h3
    have := List.length_pos_iff.2 g1
    exact ⟨ty, a, b, h1, h2, by omega, hl ▸ g2⟩
  | _ => exact absurd hp hpre

end Coll
end PolyColl
