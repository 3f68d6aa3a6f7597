import Verif.Model.ForEach
import Verif.Spec.Visit
import Verif.Lemmas.Writing
import Verif.Lemmas.Callable
import Verif.Lemmas.AlgoPart
/-! # Algorithms whose functors modify the elements -/

namespace PolyColl
open Prog

namespace Spec
variable {A F : Type} (g : F → A → A × F)

theorem changeAll_length : ∀ (s : F) (l : List A), (changeAll g s l).1.length = l.length
  | _, [] => rfl
  | s, a :: l => by simp only [changeAll, List.length_cons, changeAll_length]

theorem changeAll_append : ∀ (s : F) (l l' : List A), changeAll g s (l ++ l') =
    ((changeAll g s l).1 ++ (changeAll g (changeAll g s l).2 l').1, (changeAll g (changeAll g s l).2 l').2)
  | _, [], _ => rfl
  | s, a :: l, l' => by simp only [List.cons_append, changeAll, changeAll_append]

theorem change_length {s : F} {r n : Nat} {l : List A} (h : r + n ≤ l.length) : (change g s r n l).1.length = l.length := by
  simp only [change, List.length_append, changeAll_length, List.length_take, List.length_drop]
  omega

theorem change_zero (s : F) (r : Nat) (l : List A) : change g s r 0 l = (l, s) := by
  simp [change, changeAll]

/-- What is before and after. -/
theorem change_take {s : F} {r n : Nat} {l : List A} (h : r + n ≤ l.length) :
    (change g s r n l).1.take (r + n) = l.take r ++ (changeAll g s ((l.drop r).take n)).1 := by
  have : (l.take r ++ (changeAll g s ((l.drop r).take n)).1).length = r + n := by
    simp only [List.length_append, changeAll_length, List.length_take, List.length_drop]; omega
  rw [change]
  simp only
  rw [← this, List.take_left']
  rfl

theorem change_drop {s : F} {r n : Nat} {l : List A} (h : r + n ≤ l.length) : (change g s r n l).1.drop (r + n) = l.drop (r + n) := by
  have : (l.take r ++ (changeAll g s ((l.drop r).take n)).1).length = r + n := by
    simp only [List.length_append, changeAll_length, List.length_take, List.length_drop]; omega
  rw [change]
  simp only
  exact List.drop_left' this

/-- In two steps. -/
theorem change_add {s : F} {r n m : Nat} {l : List A} (h : r + n + m ≤ l.length) :
    change g (change g s r n l).2 (r + n) m (change g s r n l).1 = change g s r (n + m) l := by
  have h1 := change_take g (s := s) (show r + n ≤ l.length by omega)
  have h2 := change_drop g (s := s) (show r + n ≤ l.length by omega)
  have h3 : (change g s r n l).1.drop (r + n + m) = l.drop (r + n + m) := by
    rw [← List.drop_drop, h2, List.drop_drop]
  have h4 : (l.drop r).take (n + m) = (l.drop r).take n ++ (l.drop (r + n)).take m := by
    rw [List.take_add, List.drop_drop]
  have h5 : (change g s r n l).2 = (changeAll g s ((l.drop r).take n)).2 := rfl
  generalize change g s r n l = x at *
  unfold change
  rw [h1, h2, h3, h5, h4, changeAll_append, List.append_assoc (l.take r)]
  simp only [Nat.add_assoc]

/-- One step. -/
theorem change_one {s : F} {r : Nat} {l : List A} {a : A} (h : l[r]? = some a) :
    change g s r 1 l = (l.modify r fun _ => (g s a).1, (g s a).2) := by
  have hr := (List.getElem?_eq_some_iff.1 h).1
  have hd : (l.drop r).take 1 = [a] := by
    rw [List.drop_eq_getElem_cons hr, (List.getElem?_eq_some_iff.1 h).2]; rfl
  unfold change
  rw [hd]
  refine Prod.ext ?_ rfl
  simp only [changeAll]
  rw [List.modify_eq_take_cons_drop hr]
  simp

variable {g}

theorem changeUpTo_zero {b : F → A → A} {s : F} {r : Nat} {l : List A} : changeUpTo g b s r 0 l = l.modify r (b s) := by
  simp only [changeUpTo, change_zero, Nat.add_zero]

theorem changeUpTo_add {b : F → A → A} {s : F} {r n j : Nat} {l : List A} (h : r + n + j ≤ l.length) :
    changeUpTo g b (change g s r n l).2 (r + n) j (change g s r n l).1 = changeUpTo g b s r (n + j) l := by
  unfold changeUpTo
  rw [change_add g h, Nat.add_assoc]

end Spec

namespace Coll
variable {V : Type} (E : Env V)

/-- A node with the elements changed in place. -/
structure Likened (n n' : Node V) : Prop where
  id : n'.id = n.id
  key : n'.key = n.key
  ty : n'.seg.ty = n.seg.ty
  size : n'.seg.size = n.seg.size
  cap : n'.seg.capacity = n.seg.capacity
  base : ∀ j, n'.seg.base j = n.seg.base j
  loc : ∀ j, n'.seg.loc j = n.seg.loc j
  begin : n'.seg.begin = n.seg.begin

/-- A collection with elements changed in place. -/
structure Likewise (c c' : Coll V) : Prop where
  gen : c'.map.gen = c.map.gen
  nodes : ∃ φ : Node V → Node V, c'.map.nodes = c.map.nodes.map φ ∧ ∀ n ∈ c.map.nodes, Likened n (φ n)

theorem Likened.refl (n : Node V) : Likened n n := ⟨rfl, rfl, rfl, rfl, rfl, fun _ => rfl, fun _ => rfl, rfl⟩

theorem Likened.trans {a b c : Node V} (h : Likened a b) (h' : Likened b c) : Likened a c :=
  ⟨h'.id.trans h.id, h'.key.trans h.key, h'.ty.trans h.ty, h'.size.trans h.size, h'.cap.trans h.cap,
    fun j => (h'.base j).trans (h.base j), fun j => (h'.loc j).trans (h.loc j), h'.begin.trans h.begin⟩

theorem Likened.end {a b : Node V} (h : Likened a b) : b.seg.end = a.seg.end := by
  rw [Seg.end_eq, Seg.end_eq, h.size, h.base]

namespace Likewise

theorem refl (c : Coll V) : Likewise c c := ⟨rfl, fun n => n, (List.map_id _).symm, fun n _ => .refl n⟩

theorem trans {a b c : Coll V} (h : Likewise a b) (h' : Likewise b c) : Likewise a c := by
  obtain ⟨g, φ, h1, h2⟩ := h
  obtain ⟨g', φ', h1', h2'⟩ := h'
  refine ⟨g'.trans g, φ' ∘ φ, by rw [h1', h1, List.map_map], fun n hn => (h2 n hn).trans (h2' _ ?_)⟩
  rw [h1]; exact List.mem_map_of_mem hn

variable {c c' : Coll V} (h : Likewise c c')
include h

theorem usable (i : MapIt) : c'.map.usable E i = c.map.usable E i := by
  unfold TMap.usable; rw [h.gen]

theorem itEq (a b : MapIt) : c'.map.itEq E a b = c.map.itEq E a b := by
  unfold TMap.itEq; rw [h.usable, h.usable]

theorem length : c'.map.nodes.length = c.map.nodes.length := by
  obtain ⟨φ, h1, -⟩ := h.nodes
  rw [h1, List.length_map]

theorem ids : c'.map.nodes.map (·.id) = c.map.nodes.map (·.id) := by
  obtain ⟨φ, h1, h2⟩ := h.nodes
  rw [h1, List.map_map]
  exact List.map_congr_left fun n hn => (h2 n hn).id

theorem node? (it : MapIt) : (c.map.node? E it = none ∧ c'.map.node? E it = none) ∨
    ∃ n n', c.map.node? E it = some n ∧ c'.map.node? E it = some n' ∧ Likened n n' := by
  obtain ⟨φ, h1, h2⟩ := h.nodes
  unfold TMap.node?
  rw [h.usable E]
  by_cases hu : c.map.usable E it = true
  · simp only [hu, if_true]
    cases it.node with
    | none => exact .inl ⟨rfl, rfl⟩
    | some i =>
      simp only [h1]
      generalize c.map.nodes = l at *
      clear h1 h
      induction l with
      | nil => exact .inl ⟨rfl, rfl⟩
      | cons a l ih =>
        have ha := h2 a (by simp)
        simp only [List.map_cons, List.find?_cons, ha.id]
        cases a.id == i with
        | true => exact .inr ⟨a, φ a, rfl, rfl, ha⟩
        | false => exact ih fun n hn => h2 n (by simp [hn])
  · simp only [hu]
    exact .inl ⟨rfl, rfl⟩

theorem segInfo (it : MapIt) : c'.segInfo E it = c.segInfo E it := by
  unfold Coll.segInfo
  rcases h.node? E it with ⟨h1, h2⟩ | ⟨n, n', h1, h2, h3⟩
  · rw [h1, h2]
  · rw [h1, h2]
    simp only [Option.map_some, h3.key, h3.begin, h3.end]

theorem itNext (it : MapIt) : c'.map.itNext E it = c.map.itNext E it := by
  unfold TMap.itNext
  rcases h.node? E it with ⟨h1, h2⟩ | ⟨n, n', h1, h2, h3⟩
  · rw [h1, h2]
  · rw [h1, h2]
    simp only [h3.id]
    obtain ⟨φ, g1, g2⟩ := h.nodes
    unfold TMap.nodesFrom TMap.end TMap.itTo
    rw [g1, h.gen]
    generalize c.map.nodes = l at *
    clear g1 h1 h2 h3 h
    induction l with
    | nil => rfl
    | cons a l ih =>
      have ha := g2 a (by simp)
      rw [List.map_cons, List.dropWhile_cons, List.dropWhile_cons, ha.id]
      cases a.id != n.id with
      | true => exact ih fun n hn => g2 n (by simp [hn])
      | false =>
        cases l with
        | nil => rfl
        | cons b l => simp [(g2 b (by simp)).id]

theorem use {it : MapIt} {a : Node V} (ha : c.map.Use E it a) : ∃ a', c'.map.Use E it a' ∧ Likened a a' := by
  obtain ⟨φ, h1, h2⟩ := h.nodes
  have := h2 a ha.mem
  exact ⟨φ a, ⟨by rw [h1]; exact List.mem_map_of_mem ha.mem, by rw [this.id]; exact ha.node, (h.usable E _).trans ha.usable⟩, this⟩

theorem latB {l : LIter} {u : Ty} {j : Nat} (hl : c.LAtB E l u j) : c'.LAtB E l u j := by
  obtain ⟨a, ha, rfl, h2, h3⟩ := hl
  obtain ⟨a', g1, g2⟩ := h.use E ha
  exact ⟨a', g1, g2.ty, by rw [g2.size]; exact h2, by rw [g2.base]; exact h3⟩

theorem latL {l : LIter} {u : Ty} {j : Nat} (hl : c.LAtL E l u j) : c'.LAtL E l u j := by
  obtain ⟨a, ha, rfl, h2, h3⟩ := hl
  obtain ⟨a', g1, g2⟩ := h.use E ha
  exact ⟨a', g1, g2.ty, by rw [g2.size]; exact h2, by rw [g2.loc]; exact h3⟩

theorem «at» {it : GIter} {p : Spec.State.Pos} (ha : c.At E it p) : c'.At E it p := by
  refine ⟨(h.usable E _).trans ha.usable, (h.usable E _).trans ha.endUsable, ha.endNode, ?_⟩
  cases p with
  | none => exact ha.pos
  | some p =>
    obtain ⟨u, j⟩ := p
    obtain ⟨a, hu, rfl, h2, h3⟩ := ha.use
    obtain ⟨a', g1, g2⟩ := h.use E hu
    exact ⟨a', g1.mem, g1.node, g2.ty, by rw [g2.size]; exact h2, by rw [g2.base]; exact h3⟩

theorem capacities : c'.map.nodes.map (fun n => (n.id, n.key, n.seg.capacity)) = c.map.nodes.map (fun n => (n.id, n.key, n.seg.capacity)) := by
  obtain ⟨φ, h1, h2⟩ := h.nodes
  rw [h1, List.map_map]
  refine List.map_congr_left fun n hn => ?_
  have := h2 n hn
  simp only [Function.comp, this.id, this.key, this.cap]

/-- The types and the numbers of elements of the segments. -/
theorem shape : c'.abs.map (fun p => (p.1, p.2.length)) = c.abs.map (fun p => (p.1, p.2.length)) := by
  obtain ⟨φ, h1, h2⟩ := h.nodes
  simp only [Coll.abs, TMap.abs, h1, List.map_map]
  refine List.map_congr_left fun n hn => ?_
  have := h2 n hn
  have e : (φ n).seg.elems.length = n.seg.elems.length := this.size
  simp only [Function.comp, this.ty, e]

theorem rank (p : Spec.State.Pos) : c'.abs.rank p = c.abs.rank p := by
  have hs := h.shape
  generalize c.abs = s at *
  generalize c'.abs = s' at *
  clear h
  have flat : ∀ s s' : Spec.State V, s'.map (fun p => (p.1, p.2.length)) = s.map (fun p => (p.1, p.2.length)) → s'.flat.length = s.flat.length := by
    intro s
    induction s with
    | nil => intro s' h; rw [List.map_eq_nil_iff.1 h]
    | cons q s ih =>
      intro s' h
      obtain ⟨q', s'', rfl, h1, h2⟩ := List.map_eq_cons_iff.1 h
      simp only [Prod.mk.injEq] at h1
      simp only [Spec.State.flat, List.flatMap_cons, List.length_append] at ih ⊢
      rw [ih _ h2, h1.2]
  cases p with
  | none => rw [Spec.State.rank_none, Spec.State.rank_none]; exact flat _ _ hs
  | some p =>
    obtain ⟨t, k⟩ := p
    induction s generalizing s' with
    | nil => rw [List.map_eq_nil_iff.1 hs]
    | cons q s ih =>
      obtain ⟨q', s'', rfl, h1, h2⟩ := List.map_eq_cons_iff.1 hs
      obtain ⟨u, l⟩ := q
      obtain ⟨u', l'⟩ := q'
      simp only [Prod.mk.injEq] at h1
      obtain ⟨rfl, h1⟩ := h1
      simp only [Spec.State.rank, h1, ih _ h2]

theorem flat_length : c'.abs.typedFlat.length = c.abs.typedFlat.length := by
  have := h.rank none
  rwa [Spec.State.rank_none, Spec.State.rank_none, ← Spec.State.typedFlat_length, ← Spec.State.typedFlat_length] at this

end Likewise

theorem Edited.likewise {c c' : Coll V} {w w' : World} {t : Ty} {k : Nat} {f : V → V} (h : Edited c w t k f c' w') (hi : (c.map.nodes.map (·.id)).Nodup) :
    Likewise c c' := by
  obtain ⟨n, hn, rfl, hk, rfl, h1⟩ := h
  refine ⟨rfl, _, rfl, fun a ha => ?_⟩
  show Likened a (if a.id = n.id then _ else a)
  split
  · rename_i e
    have := PolyColl.eq_of_nodup (f := fun a : Node V => a.id) hi ha hn e
    subst this
    exact ⟨rfl, rfl, Seg.edit_ty _ _ _, Seg.edit_size _ _ _, Seg.edit_capacity _ _ _, Seg.edit_base _ _ _, Seg.edit_loc _ _ _, Seg.edit_begin _ _ _⟩
  · exact .refl a

end Coll

/-- What the functor makes of an element with its type, and its new state. -/
def Mutator.step {V F : Type} (f : Mutator V F) (Ts : List Ty) (s : F) (x : Ty × V) : (Ty × V) × F :=
  ((x.1, (f.run s (Passed.of Ts x)).1), (f.run s (Passed.of Ts x)).2)

/-- What it leaves of an element if it throws. -/
def Mutator.left {V F : Type} (f : Mutator V F) (Ts : List Ty) (s : F) (x : Ty × V) : Ty × V := (x.1, f.fail s (Passed.of Ts x))

namespace Algo
open Coll
variable {V F : Type} (E : Env V) (I : Coll V → World → Prop)

/-- A property of collections that holds through modifications. -/
structure Lasts : Prop where
  inv : ∀ {c w}, I c w → c.Inv E w
  apply : ∀ {c w o p t k} (a : Act V), I c w → c.Points o p t k → Runs (Coll.apply E o p a) c w (fun _ c' w' => I c' w') (fun _ c' w' => I c' w')

/-- The functor was called for the `n` elements from place `r` on. -/
structure Did (f : Mutator V F) (Ts : List Ty) (s : F) (r n : Nat) (c : Coll V) (s' : F) (c' : Coll V) (w' : World) : Prop where
  inv : I c' w'
  like : Likewise c c'
  res : (c'.abs.typedFlat, s') = Spec.change (f.step Ts) s r n c.abs.typedFlat

/-- One of these calls threw. -/
structure Broke (f : Mutator V F) (Ts : List Ty) (s : F) (r n : Nat) (c : Coll V) (e : Exc) (c' : Coll V) (w' : World) : Prop where
  exc : e = .user
  throws : f.nothrow = false
  inv : I c' w'
  like : Likewise c c'
  res : ∃ j, j < n ∧ c'.abs.typedFlat = Spec.changeUpTo (f.step Ts) (f.left Ts) s r j c.abs.typedFlat

variable {I}

theorem Did.nil {f : Mutator V F} {Ts : List Ty} {s : F} {r : Nat} {c : Coll V} {w : World} (h : I c w) : Did I f Ts s r 0 c s c w :=
  ⟨h, .refl c, (Spec.change_zero _ _ _ _).symm⟩

theorem Did.then {f : Mutator V F} {Ts : List Ty} {s s1 s2 : F} {r n m : Nat} {c c1 c2 : Coll V} {w1 w2 : World} (hl : r + n + m ≤ c.abs.typedFlat.length)
    (h : Did I f Ts s r n c s1 c1 w1) (h' : Did I f Ts s1 (r + n) m c1 s2 c2 w2) : Did I f Ts s r (n + m) c s2 c2 w2 := by
  refine ⟨h'.inv, h.like.trans h'.like, ?_⟩
  rw [h'.res, ← Spec.change_add _ hl, ← h.res]

theorem Did.thenBroke {f : Mutator V F} {Ts : List Ty} {s s1 : F} {r n m : Nat} {c c1 c2 : Coll V} {w1 w2 : World} {e : Exc} (hl : r + n + m ≤ c.abs.typedFlat.length)
    (h : Did I f Ts s r n c s1 c1 w1) (h' : Broke I f Ts s1 (r + n) m c1 e c2 w2) : Broke I f Ts s r (n + m) c e c2 w2 := by
  obtain ⟨j, hj, hr⟩ := h'.res
  refine ⟨h'.exc, h'.throws, h'.inv, h.like.trans h'.like, n + j, by omega, ?_⟩
  rw [hr, ← Spec.changeUpTo_add (by omega), ← h.res]

theorem Broke.more {f : Mutator V F} {Ts : List Ty} {s : F} {r n m : Nat} {c c1 : Coll V} {w1 : World} {e : Exc} (h : Broke I f Ts s r n c e c1 w1)
    (hm : n ≤ m) : Broke I f Ts s r m c e c1 w1 := by
  obtain ⟨j, hj, hr⟩ := h.res
  exact ⟨h.exc, h.throws, h.inv, h.like, j, by omega, hr⟩

theorem modify_known {A : Type} {l : List A} {r : Nat} {a : A} (h : l[r]? = some a) (f : A → A) : l.modify r f = l.modify r fun _ => f a := by
  apply List.ext_getElem?
  intro i
  rw [List.getElem?_modify, List.getElem?_modify]
  by_cases e : r = i
  · subst e; rw [h]; simp
  · simp [e]

theorem visitOne_runs (hI : Lasts E I) (f : Mutator V F) {Ts : List Ty} {c : Coll V} {w : World} (h : I c w) {t : Ty} {typed : Bool} (ht : typed = Ts.contains t)
    {p : Ptr} {k : Nat} (hp : c.Points (if typed then .terminal else .base) p t k) (s : F) :
    Runs (visitOne E f t typed p s) c w (Did I f Ts s (c.abs.rank (some (t, k))) 1 c) (Broke I f Ts s (c.abs.rank (some (t, k))) 1 c) := by
  have hi := hI.inv h
  have hc := hi.core E
  obtain ⟨n, hn, hnt, hk, -⟩ := id hp
  subst hnt
  have hnd : c.abs.types.Nodup := by
    have := TMap.Inv.nodup_ty E hc.map
    simp only [Coll.abs, TMap.abs, Spec.State.types, List.map_map]
    exact this
  have he := (Ens.refl E hc.map hn).elems E hc.map
  have hat : ∀ v, (c.abs.elemsOf n.seg.ty)[k]? = some v → c.abs.typedFlat[c.abs.rank (some (n.seg.ty, k))]? = some (n.seg.ty, v) := by
    intro v hv
    exact typedFlat_at E hc.map hn (by rw [he]; exact hv)
  have hval : c.abs.Valid (some (n.seg.ty, k)) := ⟨n.seg.elems, by
    rw [he]
    unfold Spec.State.elemsOf
    have : n.seg.ty ∈ c.abs.types := by
      simp only [Coll.abs, TMap.abs, Spec.State.types, List.map_map]
      exact List.mem_map_of_mem (f := fun n : Node V => n.seg.ty) hn
    cases hg : c.abs.get n.seg.ty with
    | none => exact absurd this (Spec.State.get_none.1 hg)
    | some l => rfl, hk⟩
  simp only [visitOne, runs_bind, runs_pure]
  refine ((Coll.apply_runs _ p _ c w hc hp).and (hI.apply _ h hp)).mono ?_ ?_
  · rintro v c' w' ⟨⟨h1, h2⟩, h3⟩
    refine ⟨h3, h2.likewise hc.map.ids, ?_⟩
    rw [h2.abs hc.map, Spec.State.typedFlat_modify hnd hval, Spec.change_one _ (hat v h1), modify_known (hat v h1)]
    simp only [Mutator.step, Passed.of, ht]
  · rintro e c' w' ⟨⟨h1, h2, h3⟩, h4⟩
    refine ⟨h1, h2, h4, h3.likewise hc.map.ids, 0, by omega, ?_⟩
    obtain ⟨v, hv⟩ : ∃ v, (c.abs.elemsOf n.seg.ty)[k]? = some v := ⟨_, List.getElem?_eq_getElem (by rw [← he]; exact hk)⟩
    rw [h3.abs hc.map, Spec.State.typedFlat_modify hnd hval, Spec.changeUpTo_zero, modify_known (hat v hv), modify_known (hat v hv) (f.left Ts s)]
    simp only [Mutator.left, Passed.of, ht]

/-- The addresses of a run of elements. -/
def addrOf (typed : Bool) (n : Node V) (a : Nat) : Ptr := if typed then n.seg.loc a else n.seg.base a

theorem addrOf_next (typed : Bool) (n : Node V) (a : Nat) : (⟨(addrOf typed n a).blk, (addrOf typed n a).off + 1⟩ : Ptr) = addrOf typed n (a + 1) := by
  cases typed <;> rfl

theorem addrOf_points {c : Coll V} {n : Node V} (hn : n ∈ c.map.nodes) (typed : Bool) {a : Nat} (ha : a < n.seg.size) :
    c.Points (if typed then .terminal else .base) (addrOf typed n a) n.seg.ty a := by
  cases typed <;> exact ⟨n, hn, rfl, ha, rfl⟩

theorem addrOf_like {n n' : Node V} (h : Likened n n') (typed : Bool) (a : Nat) : addrOf typed n a = addrOf typed n' a := by
  cases typed
  · exact (h.base a).symm
  · exact (h.loc a).symm

theorem rank_room {c : Coll V} {w : World} (h : c.map.Inv E c.kind w) {n : Node V} (hn : n ∈ c.map.nodes) {a k : Nat} (hk : a + k ≤ n.seg.size) :
    c.abs.rank (some (n.seg.ty, a)) + k ≤ c.abs.typedFlat.length := by
  obtain ⟨pre, l, hs⟩ := List.append_of_mem hn
  have ha : c.abs = absNodes (pre ++ n :: l) := by rw [← hs]; rfl
  rw [node_rank E h hs, Spec.State.typedFlat_length, ha]
  have : n.seg.size = n.seg.elems.length := rfl
  simp only [absNodes, Spec.State.flat, List.map_append, List.map_cons, List.flatMap_append, List.flatMap_cons, List.length_append]
  omega

theorem visit_runs (hI : Lasts E I) (f : Mutator V F) {Ts : List Ty} {t : Ty} {typed : Bool} (ht : typed = Ts.contains t) :
    ∀ (k : Nat) {c : Coll V} {w : World} {n : Node V} {a : Nat} (s : F), I c w → n ∈ c.map.nodes → n.seg.ty = t → a + k ≤ n.seg.size →
      Runs (visit E f t typed (addrOf typed n a) k s) c w (Did I f Ts s (c.abs.rank (some (t, a))) k c) (Broke I f Ts s (c.abs.rank (some (t, a))) k c) := by
  intro k
  induction k with
  | zero => intro c w n a s h _ _ _; exact Did.nil h
  | succ k ih =>
    intro c w n a s h hn hnt hk
    have hm := (hI.inv h).map
    have hroom := rank_room E hm hn (a := a) (k := k + 1) (by omega)
    rw [visit, runs_bind]
    rw [hnt] at hroom
    have hp := addrOf_points hn typed (a := a) (by omega)
    rw [hnt] at hp
    refine (visitOne_runs E hI f h ht hp s).mono (fun s1 c1 w1 h1 => ?_) (fun e c1 w1 h1 => h1.more (by omega))
    obtain ⟨n', g1, g2⟩ := h1.like.use E (use_itTo (E := E) hn)
    rw [addrOf_next, addrOf_like g2]
    have hr : c1.abs.rank (some (t, a + 1)) = c.abs.rank (some (t, a)) + 1 := by
      rw [h1.like.rank, ← hnt, rank_add E hm hn]
    have := ih s1 h1.inv g1.mem (g2.ty.trans hnt) (a := a + 1) (by rw [g2.size]; omega)
    rw [hr] at this
    have e : k + 1 = 1 + k := by omega
    rw [e] at hroom ⊢
    exact this.mono (fun s2 c2 w2 h2 => h1.then (by omega) h2) (fun e c2 w2 h2 => h1.thenBroke (by omega) h2)

theorem rangeN_typed {c : Coll V} {Ts : List Ty} {info : TI} {l : LIter} {n : Nat} {r : LRange V} (h : rangeN E c Ts (some info) l n = some r) :
    r.typed = Ts.contains (E.tiTy info) := by
  unfold rangeN at h
  rw [restitute_eq] at h
  cases hn : c.map.node? E l.mapit with
  | none => simp [hn] at h
  | some s =>
    simp only [hn] at h
    cases hc : Ts.contains (E.tiTy info) with
    | false =>
      simp only [hc] at h
      obtain ⟨vs, -, rfl⟩ := Option.map_eq_some_iff.1 h
      rfl
    | true =>
      simp only [hc, if_true] at h
      cases ha : c.toLocal E l with
      | none => simp [ha] at h
      | some a =>
        simp only [ha] at h
        split at h
        · obtain ⟨vs, -, rfl⟩ := Option.map_eq_some_iff.1 h
          rfl
        · cases h

theorem range_typed {c : Coll V} {Ts : List Ty} {i : SegInfo} {r : LRange V} (h : range E c Ts i = some r) : r.typed = Ts.contains (E.tiTy i.info) := by
  unfold range at h
  split at h
  · split at h
    · cases h
    · exact rangeN_typed E h
  · split at h
    · split at h
      · cases h
      · exact rangeN_typed E h
    · cases h

theorem visitPiece_runs (hI : Lasts E I) (f : Mutator V F) (Ts : List Ty) {c : Coll V} {w : World} (h : I c w) {i : SegInfo} {n : Node V} {a b : Nat}
    (hp : IsPiece E c i n a b) (s : F) :
    Runs (visitPiece E Ts f i s) c w (Did I f Ts s (c.abs.rank (some (n.seg.ty, a))) (b - a) c) (Broke I f Ts s (c.abs.rank (some (n.seg.ty, a))) (b - a) c) := by
  have hi := hI.inv h
  obtain ⟨r, h1, h2, h3, -⟩ := hp.rangeP E (hi.core E) Ts
  have ht : n.seg.ty = E.tiTy i.info := by rw [hp.info]; exact hi.map.ty n hp.use.mem
  simp only [visitPiece, runs_bind, runs_get, h1, runs_some]
  rw [h3, sliceP_length E hp, h2.first, ← ht]
  have := hp.le
  have := hp.le'
  exact visit_runs E hI f (by rw [range_typed E h1, ht]) (b - a) s h hp.use.mem rfl (by omega)

theorem Cut.like {c c' : Coll V} (hl : Likewise c c') {b : Bool} {ps : List SegInfo} {r : Nat} {l : List (Ty × V)} (h : Cut E c b ps r l) :
    ∃ l', l'.length = l.length ∧ Cut E c' b ps r l' := by
  induction h with
  | nil f r => exact ⟨[], rfl, .nil f r⟩
  | @cons f i is n a b r l hp hr hz _ ih =>
    obtain ⟨l', h1, h2⟩ := ih
    obtain ⟨φ, k1, k2⟩ := hl.nodes
    have g2 := k2 n hp.use.mem
    have hu : ∀ {it}, c.map.Use E it n → c'.map.Use E it (φ n) := fun hu =>
      ⟨by rw [k1]; exact List.mem_map_of_mem hu.mem, by rw [g2.id]; exact hu.node, (hl.usable E _).trans hu.usable⟩
    have g1 := hu hp.use
    have g3 := hu hp.useL
    generalize φ n = n' at *
    have hle := hp.le
    have hle' := hp.le'
    refine ⟨sliceOf n'.seg a (b - a) ++ l', ?_, .cons ⟨hp.info.trans g2.key.symm, g1, g3, hp.first.trans (g2.base a).symm, hp.last.trans (g2.base b).symm,
      hle, by rw [g2.size]; exact hle'⟩ (by rw [hl.rank, g2.ty]; exact hr) hz h2⟩
    rw [List.length_append, List.length_append, h1, sliceOf_length (by rw [g2.size]; omega), sliceOf_length (by omega)]

/-- One piece after the other, the collection staying like it was. -/
def Along (c0 : Coll V) (body : SegInfo → F → Prog (Coll V) F) (Q : F → Coll V → World → Prop) (R : Exc → Coll V → World → Prop) :
    List SegInfo → F → Coll V → World → Prop
  | [], s, c, w => Q s c w
  | i :: is, s, c, w => Runs (body i s) c w (fun s' c' w' => Likewise c0 c' ∧ Along c0 body Q R is s' c' w') R

theorem Along.append {c0 : Coll V} {body : SegInfo → F → Prog (Coll V) F} {Q : F → Coll V → World → Prop} {R : Exc → Coll V → World → Prop} {l' : List SegInfo} :
    ∀ {l : List SegInfo} {s : F} {c : Coll V} {w : World}, Along c0 body Q R (l ++ l') s c w → Along c0 body (fun s c w => Along c0 body Q R l' s c w) R l s c w
  | [], _, _, _, h => h
  | _ :: _, _, _, _, h => Runs.mono h (fun _ _ _ h => ⟨h.1, h.2.append⟩) (fun _ _ _ h => h)

theorem Along.mono {c0 : Coll V} {body : SegInfo → F → Prog (Coll V) F} {Q Q' : F → Coll V → World → Prop} {R R' : Exc → Coll V → World → Prop}
    (hq : ∀ s c w, Q s c w → Q' s c w) (hr : ∀ e c w, R e c w → R' e c w) :
    ∀ {l : List SegInfo} {s : F} {c : Coll V} {w : World}, Along c0 body Q R l s c w → Along c0 body Q' R' l s c w
  | [], _, _, _, h => hq _ _ _ h
  | _ :: _, _, _, _, h => Runs.mono h (fun _ _ _ h => ⟨h.1, h.2.mono hq hr⟩) hr

theorem along_cut (hI : Lasts E I) (f : Mutator V F) (Ts : List Ty) {c0 : Coll V} :
    ∀ (ps : List SegInfo) {c : Coll V} {w : World} {b : Bool} {r : Nat} {l : List (Ty × V)} (s : F), Likewise c0 c → I c w → Cut E c b ps r l →
      r + l.length ≤ c.abs.typedFlat.length →
      Along c0 (visitPiece E Ts f) (Did I f Ts s r l.length c) (Broke I f Ts s r l.length c) ps s c w := by
  intro ps
  induction ps with
  | nil =>
    intro c w b r l s hl h hc hr
    cases hc
    exact Did.nil h
  | cons i is ih =>
    intro c w b r l s hl h hc hr
    cases hc with
    | @cons _ _ _ n a b r l hp hrk hz hc =>
      have hle := hp.le
      have hle' := hp.le'
      have hlen : (sliceOf n.seg a (b - a)).length = b - a := sliceOf_length (by omega)
      rw [List.length_append, hlen] at hr ⊢
      subst hrk
      refine (visitPiece_runs E hI f Ts h hp s).mono (fun s1 c1 w1 h1 => ⟨hl.trans h1.like, ?_⟩) (fun e c1 w1 h1 => h1.more (by omega))
      obtain ⟨l', g1, g2⟩ := Cut.like E h1.like hc
      have := ih s1 (hl.trans h1.like) h1.inv g2 (by rw [h1.like.flat_length, g1]; omega)
      rw [g1] at this
      exact this.mono (fun s2 c2 w2 h2 => h1.then (by omega) h2) (fun e c2 w2 h2 => h1.thenBroke (by omega) h2)

/-- The loop of `for_each_segment` goes along the pieces. -/
theorem eachFromM_runs {c0 : Coll V} {body : SegInfo → F → Prog (Coll V) F} {slast : MapIt} {R : Exc → Coll V → World → Prop} :
    ∀ (fuel : Nat) {c : Coll V} {w : World} {sfirst sf : MapIt} {lb : LIter} {l : List SegInfo} {s : F} {Q : MapIt × F → Coll V → World → Prop},
      Likewise c0 c → eachFrom E c0 slast sfirst lb fuel = some (l, sf) →
      Along c0 body (fun s c w => Likewise c0 c → Q (sf, s) c w) R l s c w → Runs (eachFromM E body slast sfirst lb fuel s) c w Q R := by
  intro fuel
  induction fuel with
  | zero => intro c w sfirst sf lb l s Q _ h; cases h
  | succ fuel ih =>
    intro c w sfirst sf lb l s Q hl h ha
    rw [eachFrom] at h
    cases h1 : c0.segInfo E sfirst with
    | none => simp [h1] at h
    | some i =>
      cases h2 : c0.map.itNext E sfirst with
      | none => simp [h1, h2] at h
      | some sfirst' =>
        simp only [h1, h2] at h
        simp only [eachFromM, runs_bind, runs_get, hl.segInfo, h1, runs_some]
        cases h3 : c0.map.itEq E sfirst' slast with
        | none => simp [h3] at h
        | some b =>
          simp only [h3] at h
          cases b with
          | true =>
            simp only [Option.some.injEq, Prod.mk.injEq] at h
            obtain ⟨rfl, rfl⟩ := h
            refine Runs.mono ha (fun s' c' w' h' => ?_) (fun _ _ _ h => h)
            simp only [h'.1.itNext, h2, runs_some, h'.1.itEq, h3, if_true, runs_pure]
            exact h'.2 h'.1
          | false =>
            cases h4 : c0.segInfo E sfirst' with
            | none => simp [h4] at h
            | some i' =>
              simp only [h4] at h
              obtain ⟨⟨l', sf'⟩, h5, h6⟩ := Option.map_eq_some_iff.1 h
              simp only [Prod.mk.injEq] at h6
              obtain ⟨rfl, rfl⟩ := h6
              refine Runs.mono ha (fun s' c' w' h' => ?_) (fun _ _ _ h => h)
              simp only [h'.1.itNext, h2, runs_some, h'.1.itEq, h3, h'.1.segInfo, h4, Bool.false_eq_true, if_false, runs_bind]
              exact ih h'.1 h5 h'.2

theorem eachSegmentM_runs {c : Coll V} {w : World} {body : SegInfo → F → Prog (Coll V) F} {first last : GIter} {ps : List SegInfo} {s : F}
    {Q : F → Coll V → World → Prop} {R : Exc → Coll V → World → Prop} (hp : eachSegment E c first last = some ps) (ha : Along c body Q R ps s c w) :
    Runs (eachSegmentM E body first last s) c w Q R := by
  unfold eachSegment at hp
  simp only [eachSegmentM, runs_bind, runs_get]
  cases h1 : c.map.itEq E first.mapit last.mapit with
  | none => simp [h1] at hp
  | some b =>
    simp only [h1] at hp
    simp only [runs_some]
    cases b with
    | true =>
      simp only [if_true, runs_bind]
      cases h2 : c.map.itEq E first.mapit last.mapend with
      | none => simp [h2] at hp
      | some b =>
        simp only [h2] at hp
        simp only [runs_some]
        cases b with
        | true =>
          simp only [Option.some.injEq] at hp
          subst hp
          exact ha
        | false =>
          simp only [Bool.false_eq_true, if_false, runs_bind]
          cases h3 : c.segInfo E first.mapit with
          | none => simp [h3] at hp
          | some i =>
            simp only [h3, Option.some.injEq] at hp
            subst hp
            rw [runs_some]
            exact Runs.mono ha (fun _ _ _ h => h.2) (fun _ _ _ h => h)
    | false =>
      simp only [Bool.false_eq_true, if_false, runs_bind]
      cases h2 : eachFrom E c last.mapit first.mapit (localBase first) (c.map.nodes.length + 1) with
      | none => simp [h2] at hp
      | some r =>
        obtain ⟨l, sf⟩ := r
        simp only [h2] at hp
        cases h3 : c.map.itEq E sf last.mapend with
        | none => simp [h3] at hp
        | some b =>
          simp only [h3] at hp
          cases b with
          | true =>
            simp only [Option.some.injEq] at hp
            subst hp
            refine eachFromM_runs E _ (.refl c) h2 (ha.mono (fun s' c' w' hq hl => ?_) (fun _ _ _ h => h))
            simp only [runs_get, hl.itEq, h3, runs_some, if_true, runs_pure]
            exact hq
          | false =>
            cases h4 : c.segInfo E sf with
            | none => simp [h4] at hp
            | some i =>
              simp only [h4, Option.some.injEq] at hp
              subst hp
              refine eachFromM_runs E _ (.refl c) h2 (ha.append.mono (fun s' c' w' hq hl => ?_) (fun _ _ _ h => h))
              simp only [runs_get, hl.itEq, h3, runs_some, Bool.false_eq_true, if_false, runs_bind, hl.segInfo, h4]
              exact Runs.mono hq (fun _ _ _ h => h.2) (fun _ _ _ h => h)

theorem splitDeref_like {c c' : Coll V} (h : Likewise c c') (first last : GIter) (it : MapIt) : splitDeref E c' first last it = splitDeref E c first last it := by
  unfold splitDeref
  rw [h.segInfo, h.itEq, h.itEq]

/-- So does the loop over a `segment_splitter`. -/
theorem splitFromM_runs {c0 : Coll V} {body : SegInfo → F → Prog (Coll V) F} {first last : GIter} {stop : MapIt} {Q : F → Coll V → World → Prop}
    {R : Exc → Coll V → World → Prop} :
    ∀ (fuel : Nat) {c : Coll V} {w : World} {it : MapIt} {l : List SegInfo} {s : F}, Likewise c0 c → splitFrom E c0 first last stop it fuel = some l →
      Along c0 body Q R l s c w → Runs (splitFromM E body first last stop it fuel s) c w Q R := by
  intro fuel
  induction fuel with
  | zero => intro c w it l s _ h; cases h
  | succ fuel ih =>
    intro c w it l s hl h ha
    rw [splitFrom] at h
    simp only [splitFromM, runs_bind, runs_get, hl.itEq]
    cases h1 : c0.map.itEq E it stop with
    | none => simp [h1] at h
    | some b =>
      simp only [h1] at h
      simp only [runs_some]
      cases b with
      | true =>
        simp only [Option.some.injEq] at h
        subst h
        exact ha
      | false =>
        simp only [Bool.false_eq_true, if_false, runs_bind, splitDeref_like E hl]
        cases h2 : splitDeref E c0 first last it with
        | none => simp [h2] at h
        | some i =>
          cases h3 : c0.map.itNext E it with
          | none => simp [h2, h3] at h
          | some it' =>
            simp only [h2, h3] at h
            obtain ⟨l', h4, rfl⟩ := Option.map_eq_some_iff.1 h
            rw [runs_some]
            refine Runs.mono ha (fun s' c' w' h' => ?_) (fun _ _ _ h => h)
            simp only [runs_get, h'.1.itNext, h3, runs_some]
            exact ih h'.1 h4 h'.2

/-- `for_each`. -/
theorem forEachM_runs (hI : Lasts E I) (f : Mutator V F) (Ts : List Ty) {c : Coll V} {w : World} (h : I c w) {first last : GIter} {p q : Spec.State.Pos}
    (hf : c.At E first p) (hl : c.At E last q) (hpq : c.abs.rank p ≤ c.abs.rank q) (s : F) :
    Runs (forEachM E Ts first last f s) c w (Did I f Ts s (c.abs.rank p) (c.abs.rank q - c.abs.rank p) c)
      (Broke I f Ts s (c.abs.rank p) (c.abs.rank q - c.abs.rank p) c) := by
  have hi := hI.inv h
  obtain ⟨ps, h1, h2⟩ := segmentSplit_cut E hi hf hl hpq
  have hq := Spec.State.rank_le (hl.valid E hi.map)
  have hlen : (Spec.State.between c.abs p q).length = c.abs.rank q - c.abs.rank p := by
    rw [← Spec.State.typedFlat_length] at hq
    simp only [Spec.State.between, List.length_take, List.length_drop]
    omega
  have := along_cut E hI f Ts ps s (.refl c) h h2 (by rw [hlen, Spec.State.typedFlat_length]; omega)
  rw [hlen] at this
  exact eachSegmentM_runs E ((eachSegment_eq E hi hf hl hpq).trans h1) this

/-- `move`. -/
theorem moveM_runs (hI : Lasts E I) (f : Mutator V F) (Ts : List Ty) {c : Coll V} {w : World} (h : I c w) {first last : GIter} {p q : Spec.State.Pos}
    (hf : c.At E first p) (hl : c.At E last q) (hpq : c.abs.rank p ≤ c.abs.rank q) (s : F) :
    Runs (moveM E Ts first last f s) c w (Did I f Ts s (c.abs.rank p) (c.abs.rank q - c.abs.rank p) c)
      (Broke I f Ts s (c.abs.rank p) (c.abs.rank q - c.abs.rank p) c) := by
  have hi := hI.inv h
  obtain ⟨ps, h1, h2⟩ := segmentSplit_cut E hi hf hl hpq
  have hq := Spec.State.rank_le (hl.valid E hi.map)
  have hlen : (Spec.State.between c.abs p q).length = c.abs.rank q - c.abs.rank p := by
    rw [← Spec.State.typedFlat_length] at hq
    simp only [Spec.State.between, List.length_take, List.length_drop]
    omega
  have := along_cut E hI f Ts ps s (.refl c) h h2 (by rw [hlen, Spec.State.typedFlat_length]; omega)
  rw [hlen] at this
  unfold segmentSplit at h1
  simp only [moveM, runs_bind, runs_get]
  cases h3 : splitEnd E c last with
  | none => simp [h3] at h1
  | some stop =>
    simp only [h3] at h1
    exact splitFromM_runs E _ (.refl c) h1 this

theorem visitN_runs (hI : Lasts E I) (f : Mutator V F) (Ts : List Ty) {c : Coll V} {w : World} (h : I c w) {l : LIter} {n : Node V} {a k : Nat}
    (hu : c.map.Use E l.mapit n) (hp : l.pos = n.seg.base a) (hk : a + k ≤ n.seg.size) {info : TI} (hinfo : info = n.key) (s : F) :
    Runs (visitN E Ts f info l k s) c w
      (fun r c' w' => Did I f Ts s (c.abs.rank (some (n.seg.ty, a))) k c r.2 c' w' ∧ r.1 = ⟨l.mapit, n.seg.base (a + k)⟩)
      (Broke I f Ts s (c.abs.rank (some (n.seg.ty, a))) k c) := by
  have hi := hI.inv h
  have ht : n.seg.ty = E.tiTy info := by rw [hinfo]; exact hi.map.ty n hu.mem
  obtain ⟨r, h1, h2, h3, h4⟩ := rangeN_eq E (hi.core E) Ts hu hp hk ht.symm
  simp only [visitN, runs_bind, runs_get, h1, runs_some]
  rw [h2.first, ← ht]
  refine (visit_runs E hI f (by rw [rangeN_typed E h1, ht]) k s h hu.mem rfl hk).mono (fun s' c' w' h' => ?_) (fun _ _ _ h => h)
  obtain ⟨n', g1, g2⟩ := h'.like.use E hu
  have hr : IsRange E c' r n' a := ⟨by rw [h4]; exact g1, by rw [h2.first, g2.base, g2.loc]⟩
  rw [hr.at E ((hI.inv h'.inv).core E) (k := k) (by rw [g2.size]; exact hk)]
  simp only [runs_some, runs_pure]
  exact ⟨h', by rw [h4, g2.base]⟩

theorem map_split {c c' : Coll V} (hl : Likewise c c') {pre l : List (Node V)} {x : Node V} (hn : c.map.nodes = pre ++ x :: l) :
    ∃ pre' x' l', c'.map.nodes = pre' ++ x' :: l' ∧ l'.length = l.length ∧ Likened x x' ∧ pre'.length = pre.length := by
  obtain ⟨φ, h1, h2⟩ := hl.nodes
  refine ⟨pre.map φ, φ x, l.map φ, by rw [h1, hn]; simp, List.length_map _, h2 x (by rw [hn]; simp), List.length_map _⟩

/-- The loop of `for_each_n`. -/
theorem forEachNFromM_runs (hI : Lasts E I) (f : Mutator V F) (Ts : List Ty) {e : MapIt} (hen : e.node = none) :
    ∀ (fuel : Nat) {c : Coll V} {w : World} {l pre : List (Node V)} {x : Node V} {sit : MapIt} {lb : LIter} {a n : Nat} (s : F), I c w →
      c.map.usable E e = true → c.map.nodes = pre ++ x :: l → c.map.Use E sit x → c.map.Use E lb.mapit x → lb.pos = x.seg.base a → a ≤ x.seg.size →
      c.abs.rank (some (x.seg.ty, a)) + n ≤ c.abs.typedFlat.length → l.length < fuel →
      Runs (forEachNFromM E Ts e f sit lb n s fuel) c w
        (fun r c' w' => Did I f Ts s (c.abs.rank (some (x.seg.ty, a))) n c r.2 c' w' ∧ AtRank E c' r.1 (c.abs.rank (some (x.seg.ty, a)) + n))
        (Broke I f Ts s (c.abs.rank (some (x.seg.ty, a))) n c) := by
  intro fuel
  induction fuel with
  | zero => intro c w l pre x sit lb a n s _ _ _ _ _ _ _ _ hfu; omega
  | succ fuel ih =>
    intro c w l pre x sit lb a n s h heu hn hu hul hp ha hlen hfu
    have hi := hI.inv h
    have hspan : span lb.pos x.seg.end = some (x.seg.size - a) := by rw [hp, Seg.end_eq]; exact span_base x.seg ha
    simp only [forEachNFromM, runs_bind, runs_get, segInfo_eq E hi.map hu, runs_some, hspan]
    by_cases hk : n ≤ x.seg.size - a
    · simp only [if_pos hk, runs_bind, runs_get]
      refine (visitN_runs E hI f Ts h hul hp (k := n) (by omega) rfl s).mono (fun r c' w' h' => ?_) (fun _ _ _ h => h)
      obtain ⟨x', g1, g2⟩ := h'.1.like.use E hul
      obtain ⟨g, g3, g4⟩ := iteratorFrom_eq E (hI.inv h'.1.inv) g1 (k := a + n) (by rw [g2.size]; omega) ((h'.1.like.usable E e).trans heu) hen
      rw [g2.base] at g3
      rw [h'.2, g3]
      simp only [runs_some, runs_pure]
      rw [h'.1.like.rank, g2.ty, rank_add E hi.map hu.mem] at g4
      exact ⟨h'.1, g4⟩
    · have hroom := rank_room E hi.map hu.mem (a := a) (k := x.seg.size - a) (by omega)
      simp only [if_neg hk, runs_bind, runs_get]
      refine (visitN_runs E hI f Ts h hul hp (k := x.seg.size - a) (by omega) rfl s).mono (fun r c' w' h' => ?_) (fun _ _ _ h' => h'.more (by omega))
      have hi' := hI.inv h'.1.inv
      cases l with
      | nil =>
        exfalso
        have ha : c.abs = absNodes (pre ++ [x]) := by rw [← hn]; rfl
        rw [node_rank E hi.map hn, Spec.State.typedFlat_length, ha] at hlen
        have : x.seg.size = x.seg.elems.length := rfl
        simp only [absNodes, Spec.State.flat, List.map_append, List.map_cons, List.flatMap_append, List.flatMap_cons, List.length_append, List.map_nil,
          List.flatMap_nil, List.length_nil] at hlen
        omega
      | cons y l =>
        have hn' : c.map.nodes = (pre ++ [x]) ++ y :: l := by rw [hn, List.append_assoc]; rfl
        have hym : y ∈ c.map.nodes := by rw [hn]; simp
        have hnx : c.map.itNext E sit = some (c.map.itTo y) := itNext_eq E hi hn hu
        obtain ⟨pre', y', l', g1, g2, g3, -⟩ := map_split h'.1.like hn'
        have hy' : y' ∈ c'.map.nodes := by rw [g1]; simp
        have hto : c'.map.itTo y' = c.map.itTo y := by unfold TMap.itTo; rw [h'.1.like.gen, g3.id]
        have hu' : c'.map.Use E (c.map.itTo y) y' := by rw [← hto]; exact use_itTo E hy'
        simp only [h'.1.like.itNext, hnx, runs_some, segInfo_eq E hi'.map hu']
        have hrk : c'.abs.rank (some (y'.seg.ty, 0)) = c.abs.rank (some (x.seg.ty, a)) + (x.seg.size - a) := by
          rw [h'.1.like.rank, g3.ty, node_rank E hi.map hn', node_rank E hi.map hn]
          have : x.seg.size = x.seg.elems.length := rfl
          simp only [absNodes, Spec.State.flat, List.map_append, List.map_cons, List.flatMap_append, List.flatMap_cons, List.length_append, List.map_nil,
            List.flatMap_nil, List.length_nil]
          omega
        have hb : y'.seg.begin = y'.seg.base 0 := by
          obtain ⟨_, _, ⟨be, snt⟩⟩ := y'
          cases be <;> rfl
        have := ih (n := n - (x.seg.size - a)) r.2 h'.1.inv ((h'.1.like.usable E e).trans heu) g1 hu' (lb := ⟨c.map.itTo y, y'.seg.begin⟩) hu' (a := 0) hb (Nat.zero_le _)
          (by rw [hrk, h'.1.like.flat_length]; omega) (by rw [g2]; simp only [List.length_cons] at hfu; omega)
        rw [hrk] at this
        have en : n = (x.seg.size - a) + (n - (x.seg.size - a)) := by omega
        refine this.mono (fun r2 c2 w2 h2 => ⟨?_, ?_⟩) (fun e2 c2 w2 h2 => ?_)
        · rw [en]; exact h'.1.then (by omega) h2.1
        · rw [en, ← Nat.add_assoc]; exact h2.2
        · rw [en]; exact h'.1.thenBroke (by omega) h2

/-- `for_each_n`. -/
theorem forEachNM_runs (hI : Lasts E I) (f : Mutator V F) (Ts : List Ty) {c : Coll V} {w : World} (h : I c w) {first : GIter} {p : Spec.State.Pos}
    (hf : c.At E first p) (n : Int) (hn : c.abs.rank p + n.toNat ≤ c.abs.flat.length) (s : F) :
    Runs (forEachNM E Ts first n f s) c w
      (fun r c' w' => Did I f Ts s (c.abs.rank p) n.toNat c r.2 c' w' ∧ AtRank E c' r.1 (c.abs.rank p + n.toNat)) (Broke I f Ts s (c.abs.rank p) n.toNat c) := by
  unfold forEachNM
  by_cases h0 : n ≤ 0
  · have : n.toNat = 0 := by omega
    rw [if_pos h0, this]
    exact ⟨Did.nil h, p, hf, rfl⟩
  · rw [if_neg h0]
    cases p with
    | none => rw [rank_none] at hn; omega
    | some p =>
      obtain ⟨t, k⟩ := p
      obtain ⟨a, hu, rfl, ha2, ha3⟩ := hf.use E
      obtain ⟨pre, l, hs⟩ := List.append_of_mem hu.mem
      rw [← Spec.State.typedFlat_length] at hn
      simp only [runs_bind, runs_get]
      exact forEachNFromM_runs E hI f Ts hf.endNode _ s h hf.endUsable hs hu hu ha3 (Nat.le_of_lt ha2) hn (by rw [hs]; simp only [List.length_append, List.length_cons]; omega)

end Algo
end PolyColl
