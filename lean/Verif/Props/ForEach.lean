import Verif.Lemmas.ForEach
import Verif.Props.Algorithms
import Verif.Props.Writing
/-!
# Property C80: algorithms whose functors modify the elements
-/

namespace PolyColl.Props
open PolyColl Prog Coll

variable {V F : Type} {E : Env V} {k : Kind}

/-- Going from `c` to `c'`, elements were changed in place: the segments are the same, with the same
numbers of elements and capacities, and all iterators stay valid and refer to where they referred to. -/
structure InPlace (E : Env V) (k : Kind) (c c' : Coll V) (w' : World) : Prop where
  reach : c'.Reachable E k w'
  shape : c'.abs.map (fun p => (p.1, p.2.length)) = c.abs.map (fun p => (p.1, p.2.length))
  iter : ∀ it p, c.At E it p → c'.At E it p
  liter : ∀ o l u j, LAt E c o l u j → LAt E c' o l u j
  caps : c'.map.nodes.map (fun n => (n.id, n.key, n.seg.capacity)) = c.map.nodes.map (fun n => (n.id, n.key, n.seg.capacity))

/-- What a functor makes of an element and its type, given the element as what it is if its type is one
of `Ts`. -/
def makes (f : Mutator V F) (Ts : List Ty) (s : F) (x : Ty × V) : (Ty × V) × F :=
  ((x.1, (f.run s ⟨x.1, x.2, Ts.contains x.1⟩).1), (f.run s ⟨x.1, x.2, Ts.contains x.1⟩).2)

/-- What it leaves if it throws. -/
def leaves (f : Mutator V F) (Ts : List Ty) (s : F) (x : Ty × V) : Ty × V := (x.1, f.fail s ⟨x.1, x.2, Ts.contains x.1⟩)

/-- A functor was called for the `n` elements from place `r` on, in order, and changed them; nothing else
has changed. -/
structure CalledFor (E : Env V) (k : Kind) (f : Mutator V F) (Ts : List Ty) (s : F) (r n : Nat) (c : Coll V) (s' : F) (c' : Coll V) (w' : World) : Prop where
  place : InPlace E k c c' w'
  elems : (c'.abs.typedFlat, s') = Spec.change (makes f Ts) s r n c.abs.typedFlat

/-- The functor threw at one of these elements: those before it have been changed, those after it have
not. -/
structure ThrewAmong (E : Env V) (k : Kind) (f : Mutator V F) (Ts : List Ty) (s : F) (r n : Nat) (c : Coll V) (e : Exc) (c' : Coll V) (w' : World) : Prop where
  place : InPlace E k c c' w'
  exc : e = .user
  can : f.nothrow = false
  elems : ∃ j, j < n ∧ c'.abs.typedFlat = Spec.changeUpTo (makes f Ts) (leaves f Ts) s r j c.abs.typedFlat

theorem lasts (E : Env V) (k : Kind) : Algo.Lasts E fun c w => c.Reachable E k w :=
  ⟨fun h => h.inv, fun a h hp => (apply_changed h hp a).mono (fun _ _ _ h => h.2.reach) (fun _ _ _ h => h.2.2.reach)⟩

theorem inPlace {c c' : Coll V} {w' : World} (h : c'.Reachable E k w') (hl : Likewise c c') : InPlace E k c c' w' :=
  ⟨h, hl.shape, fun _ _ => hl.at E, fun o l u j hl' => by
    cases o with
    | base => exact hl.latB E hl'
    | terminal => exact hl.latL E hl', hl.capacities⟩

theorem calledFor {f : Mutator V F} {Ts : List Ty} {s s' : F} {r n : Nat} {c c' : Coll V} {w' : World}
    (h : Algo.Did (fun c w => c.Reachable E k w) f Ts s r n c s' c' w') : CalledFor E k f Ts s r n c s' c' w' := ⟨inPlace h.inv h.like, h.res⟩

theorem threwAmong {f : Mutator V F} {Ts : List Ty} {s : F} {r n : Nat} {c c' : Coll V} {e : Exc} {w' : World}
    (h : Algo.Broke (fun c w => c.Reachable E k w) f Ts s r n c e c' w') : ThrewAmong E k f Ts s r n c e c' w' :=
  ⟨inPlace h.inv h.like, h.exc, h.throws, h.res⟩

section
variable {c : Coll V} {w : World} {first last : GIter} {p q : Spec.State.Pos}

/-- **C80** for `for_each`. -/
theorem C80_for_each (h : c.Reachable E k w) (hr : Range E c first last p q) (Ts : List Ty) (f : Mutator V F) (s : F) :
    Runs (Algo.forEachM E Ts first last f s) c w (CalledFor E k f Ts s (c.abs.rank p) (c.abs.rank q - c.abs.rank p) c)
      (ThrewAmong E k f Ts s (c.abs.rank p) (c.abs.rank q - c.abs.rank p) c) :=
  (Algo.forEachM_runs E (lasts E k) f Ts h hr.first hr.last hr.le s).mono (fun _ _ _ h => calledFor h) (fun _ _ _ h => threwAmong h)

/-- **C80** for `for_each_n`, where there are at least `n` elements from `p` on: the iterator returned is
the one after them. -/
theorem C80_for_each_n (h : c.Reachable E k w) (hf : c.At E first p) (n : Int) (hn : c.abs.rank p + n.toNat ≤ c.size) (Ts : List Ty) (f : Mutator V F) (s : F) :
    Runs (Algo.forEachNM E Ts first n f s) c w
      (fun r c' w' => CalledFor E k f Ts s (c.abs.rank p) n.toNat c r.2 c' w' ∧ ∃ p', c'.At E r.1 p' ∧ c'.abs.rank p' = c.abs.rank p + n.toNat)
      (ThrewAmong E k f Ts s (c.abs.rank p) n.toNat c) := by
  rw [size_abs] at hn
  exact (Algo.forEachNM_runs E (lasts E k) f Ts h hf n hn s).mono (fun _ _ _ h => ⟨calledFor h.1, h.2⟩) (fun _ _ _ h => threwAmong h)

/-- **C80** for `move`, where the functor is assignment of `std::move(*it)` to an output iterator. -/
theorem C80_move (h : c.Reachable E k w) (hr : Range E c first last p q) (Ts : List Ty) (f : Mutator V F) (s : F) :
    Runs (Algo.moveM E Ts first last f s) c w (CalledFor E k f Ts s (c.abs.rank p) (c.abs.rank q - c.abs.rank p) c)
      (ThrewAmong E k f Ts s (c.abs.rank p) (c.abs.rank q - c.abs.rank p) c) :=
  (Algo.moveM_runs E (lasts E k) f Ts h hr.first hr.last hr.le s).mono (fun _ _ _ h => calledFor h) (fun _ _ _ h => threwAmong h)

end

/-- **C80**: this says all there is to say of the elements. -/
theorem C80_determined : ∀ {s s' : Spec.State V}, s'.map (fun p => (p.1, p.2.length)) = s.map (fun p => (p.1, p.2.length)) → s'.typedFlat = s.typedFlat → s' = s
  | [], s', h, _ => List.map_eq_nil_iff.1 h
  | (t, l) :: s, s', h, hf => by
    obtain ⟨⟨t', l'⟩, s'', rfl, h1, h2⟩ := List.map_eq_cons_iff.1 h
    simp only [Prod.mk.injEq] at h1
    obtain ⟨rfl, h1⟩ := h1
    simp only [Spec.State.typedFlat, List.flatMap_cons] at hf
    obtain ⟨h3, h4⟩ := List.append_inj hf (by simp [h1])
    have h5 : l' = l := by
      have := congrArg (List.map Prod.snd) h3
      simpa [Function.comp_def] using this
    rw [h5, C80_determined h2 h4]

/-- **C80**: a functor that changes nothing and does not throw finds the same elements in the same order,
and ends in the same state, as in C43. -/
theorem C80_reading {c : Coll V} {w : World} {first last : GIter} {p q : Spec.State.Pos} (h : c.Reachable E k w) (hr : Range E c first last p q) (Ts : List Ty)
    (f : Mutator V F) (hf : ∀ s x, (f.run s x).1 = x.val) (hn : f.nothrow = true) (s : F) :
    Runs (Algo.forEachM E Ts first last f s) c w
      (fun s' c' _ => c'.abs = c.abs ∧ (Algo.forEach (m := Id) E c Ts first last (fun s x => (f.run s x).2) s).run = some s') (fun _ _ _ => False) := by
  have key : ∀ (l : List (Ty × V)) (s : F), Spec.changeAll (makes f Ts) s l = (l, (l.map fun x => (⟨x.1, x.2, Ts.contains x.1⟩ : Passed V)).foldl (fun s x => (f.run s x).2) s) := by
    intro l
    induction l with
    | nil => intro s; rfl
    | cons x l ih =>
      intro s
      simp only [Spec.changeAll, ih, makes, hf, List.map_cons, List.foldl_cons]
  refine (C80_for_each h hr Ts f s).mono ?_ ?_
  · rintro s' c' w' ⟨h1, h2⟩
    simp only [Spec.change, key, Prod.mk.injEq] at h2
    have h3 : c'.abs.typedFlat = c.abs.typedFlat := by
      rw [h2.1, List.append_assoc, ← List.drop_drop, List.take_append_drop, List.take_append_drop]
    refine ⟨C80_determined h1.shape h3, ?_⟩
    rw [C43_for_each (m := Id) h hr Ts _ s, h2.2]
    show some _ = some _
    congr 1
    unfold seen Spec.State.between
    clear h1 h2 h3
    generalize List.map _ _ = l
    induction l generalizing s with
    | nil => rfl
    | cons x l ih => exact ih _
  · rintro e c' w' h
    rw [h.can] at hn
    cases hn

/-- The elements from the third on are multiplied by ten, and their old values added up. -/
example (k : Kind) : (Sample.c0 k).Reachable Sample.E0 k (Sample.w0 k) ∧
    Range Sample.E0 (Sample.c0 k) (Sample.iter k 2) (Sample.c0 k).end (some (0, 1)) none ∧
    Runs (Algo.forEachM Sample.E0 [0] (Sample.iter k 2) (Sample.c0 k).end ⟨fun s x => (x.val * 10, s + x.val), fun _ _ => 0, true⟩ 100) (Sample.c0 k) (Sample.w0 k)
      (fun s c' _ => s = 112 ∧ c'.abs = [(1, [9]), (0, [1, 20, 30]), (5, []), (2, [70])]) (fun _ _ _ => False) := by
  refine ⟨Sample.reach0 k, range0 k, (C80_for_each (Sample.reach0 k) (range0 k) [0] _ 100).mono ?_ ?_⟩
  · rintro s c' w' ⟨h1, h2⟩
    have h3 := h1.shape
    rw [rank0, Sample.abs0] at h2
    rw [Sample.abs0] at h3
    exact ⟨congrArg Prod.snd h2, C80_determined h3 (congrArg Prod.fst h2)⟩
  · rintro e c' w' h
    cases h.can

/-- A functor that may throw, given the first two of them: if it throws at the second, the first has been
changed. -/
example (k : Kind) : Runs (Algo.forEachNM Sample.E0 [0] (Sample.iter k 2) 2 ⟨fun _ x => (x.val * 10, ()), fun _ _ => 0, false⟩ ()) (Sample.c0 k) (Sample.w0 k)
      (fun _ c' _ => c'.abs = [(1, [9]), (0, [1, 20, 30]), (5, []), (2, [7])])
      (fun e c' _ => e = .user ∧ (c'.abs = [(1, [9]), (0, [1, 0, 3]), (5, []), (2, [7])] ∨ c'.abs = [(1, [9]), (0, [1, 20, 0]), (5, []), (2, [7])])) := by
  have hs : (Sample.c0 k).size = 5 := by cases k <;> rfl
  refine (C80_for_each_n (Sample.reach0 k) (range0 k).first 2 (by rw [rank0, hs]; decide) [0] _ ()).mono ?_ ?_
  · rintro s c' w' ⟨⟨h1, h2⟩, -⟩
    have h3 := h1.shape
    rw [rank0, Sample.abs0] at h2
    rw [Sample.abs0] at h3
    exact C80_determined h3 (congrArg Prod.fst h2)
  · rintro e c' w' ⟨h1, h2, -, j, h3, h4⟩
    have h5 := h1.shape
    rw [rank0, Sample.abs0] at h4
    rw [Sample.abs0] at h5
    refine ⟨h2, ?_⟩
    have h3 : j < 2 := h3
    match j, h3 with
    | 0, _ => exact .inl (C80_determined h5 h4)
    | 1, _ => exact .inr (C80_determined h5 h4)

/-- Moving out all elements of type 0: they are left as zeros. -/
example (k : Kind) : Runs (Algo.moveM Sample.E0 [0] (Sample.iter k 2) (Sample.c0 k).end ⟨fun s x => (if x.typed then 0 else x.val, s ++ [x.val]), fun _ _ => 0, true⟩ [])
      (Sample.c0 k) (Sample.w0 k) (fun s c' _ => s = [2, 3, 7] ∧ c'.abs = [(1, [9]), (0, [1, 0, 0]), (5, []), (2, [7])]) (fun _ _ _ => False) := by
  refine (C80_move (Sample.reach0 k) (range0 k) [0] _ []).mono ?_ ?_
  · rintro s c' w' ⟨h1, h2⟩
    have h3 := h1.shape
    rw [rank0, Sample.abs0] at h2
    rw [Sample.abs0] at h3
    exact ⟨congrArg Prod.snd h2, C80_determined h3 (congrArg Prod.fst h2)⟩
  · rintro e c' w' h
    cases h.can

end PolyColl.Props
