import Verif.Lemmas.Callable
import Verif.Props.Writing
import Verif.Props.Iterators
import Verif.Props.Object
/-!
# Property C75: what the iterators of a `function_collection` refer to

`*it` is a `callable_wrapper`; it is to behave as a `std::function` that refers to the element.
-/

namespace PolyColl.Props
open PolyColl Prog Coll

variable {V A R : Type} {E : Env V} {S : Signature V A R} {k : Kind}

/-- What holds of signatures if no type overloads unary `&`. -/
structure Plain (E : Env V) (S : Signature V A R) : Prop where
  amp : ∀ t p, S.amp t p = p
  info : ∀ t, E.tiTy (S.info t) = t

/-- `f` is a wrapper of element `n` of segment `t`. -/
def Wraps (E : Env V) (c : Coll V) (f : Wrapper) (t : Ty) (n : Nat) : Prop :=
  E.tiTy f.info = t ∧ c.Points .terminal f.px t n

/-- **C75**, the wrappers in the index: if the type of the elements is not that of the wrappers, building the
index amounts to storing addresses (as `Split.lean` has it), also if this fails halfway.

Missing: elements that are wrappers themselves, see `C75_own_type`. -/
theorem C75_index_partial {f : FSplit V} (ho : S.own f.x.ty = false) (h : f.Made S) (start : Nat) (w : World) :
    FSplit.Alike S f.x.ty (FSplit.buildIndex E S start f w) (Split.buildIndex E start f.x w) :=
  FSplit.each_alike ho _ f w rfl h

theorem wraps_of_points {c : Coll V} {w : World} (h : c.Reachable E .split w) (hS : Plain E S) {p : Ptr} {t : Ty} {n : Nat} (hp : c.Points .base p t n) :
    ∃ f, c.wrapper S p = some f ∧ Wraps E c f t n := by
  obtain ⟨y, hy, h1, h2, h3, h4⟩ := wrapper_at (S := S) (h.inv.core E) h.kind hp
  exact ⟨_, h4, hS.info t, y, hy, h1, h2, hS.amp _ _⟩

/-- **C75.**  An iterator at an element refers to a wrapper of that element.

Missing: types that overload unary `&`, see `C75_ampersand`. -/
theorem C75_reference_partial {c : Coll V} {w : World} (h : c.Reachable E .split w) (hS : Plain E S) {it : GIter} {t : Ty} {n : Nat}
    (hi : c.At E it (some (t, n))) : ∃ f, c.wrapper S it.segpos = some f ∧ Wraps E c f t n :=
  wraps_of_points h hS hi.points

/-- So do the iterators of its segment.  The same is missing. -/
theorem C75_reference_local_partial {c : Coll V} {w : World} (h : c.Reachable E .split w) (hS : Plain E S) {l : LIter} {t : Ty} {n : Nat}
    (hl : c.LAtB E l t n) (hn : n < (c.abs.elemsOf t).length) : ∃ f, c.wrapper S l.pos = some f ∧ Wraps E c f t n :=
  wraps_of_points h hS (points_of_lat h (o := .base) hl hn)

/-- **C75**, observers: a wrapper is never empty, its target is the element, which has the type that is
asked for or else there is none, and `data` and `std::function`s made from it have the address of the
element, which is where the local iterators to it point. -/
theorem C75_observers {c : Coll V} {w : World} (h : c.Reachable E k w) {f : Wrapper} {t : Ty} {n : Nat} (hf : Wraps E c f t n) :
    f.toBool = true ∧ E.tiTy f.targetType = t ∧ (∀ l, c.LAtL E l t n → f.data = l.pos) ∧ (c.derefLocal f.data = (c.abs.elemsOf t)[n]?) ∧
    (∀ u, f.target E u = if E.tiTy u = t then some f.data else none) ∧ f.convert E = ⟨t, f.data⟩ := by
  obtain ⟨h1, y, hy, h2, h3, h4⟩ := hf
  refine ⟨rfl, h1, ?_, ?_, ?_, ?_⟩
  · rintro l ⟨y', hu, h5, h6, h7⟩
    have : y' = y := eq_of_nodup (h.map.nodup_ty E) hu.mem hy (h5.trans h2.symm)
    rw [h7, this]
    exact h4
  · rw [show f.data = y.seg.loc n from h4, derefLocal_node (h.inv.core E) hy h3, (Ens.refl E h.map hy).elems E h.map, h2]
  · intro u
    unfold Wrapper.target
    rw [h1]
    rfl
  · show FunRef.mk _ _ = _
    rw [h1]; rfl

/-- **C75**, calls: the element is called, it has the value the callable left and nothing else has changed.
Exceptions are passed on. -/
theorem C75_call {c : Coll V} {w : World} (h : c.Reachable E k w) {f : Wrapper} {t : Ty} {n : Nat} (hf : Wraps E c f t n) (a : A) :
    Runs (f.call E S a) c w
      (fun r c' w' => (∃ v, (c.abs.elemsOf t)[n]? = some v ∧ r = S.ret t v a) ∧ OneChanged E k c t n (S.act t a).run c' w')
      (fun e c' w' => e = .user ∧ (S.act t a).nothrow = false ∧ OneChanged E k c t n (S.act t a).fail c' w') := by
  unfold Wrapper.call
  rw [hf.1, invoke_runs (h.inv.core E) hf.2]
  exact (apply_changed h hf.2 _).mono (fun v _ _ h => ⟨⟨v, h.1, rfl⟩, h.2⟩) (fun _ _ _ h => h)

/-- **C75**, `std::function`s made from wrappers do the same. -/
theorem C75_function {f : Wrapper} (a : A) : (f.convert E).call E S a = f.call E S a := rfl

/-- **C75**, copies of wrappers, and `std::function`s made from them, can be used as long as local
iterators to the element (C27 tells for how long this is). -/
theorem C75_stays {c c' : Coll V} {w w' : World} (h : c.Reachable E k w) (h' : c'.Reachable E k w') {f : Wrapper} {t : Ty} {n : Nat}
    (hf : Wraps E c f t n) (hs : LocalSurvives E c t n c') : Wraps E c' f t n := by
  obtain ⟨h1, y, hy, rfl, h3, h4⟩ := hf
  have hn : n < (c.abs.elemsOf y.seg.ty).length := by
    rw [← (Ens.refl E h.map hy).elems E h.map, ← Seg.size_eq]; exact h3
  have hl : c.LAtL E ⟨c.map.itTo y, f.px⟩ y.seg.ty n := ⟨y, use_itTo hy, rfl, Nat.le_of_lt h3, h4⟩
  refine ⟨h1, points_of_lat h' (o := .terminal) (hs.localIters _ hl).1 ?_⟩
  have := hs.elem
  rw [List.getElem?_eq_getElem hn] at this
  exact (List.getElem?_eq_some_iff.1 this).1

/-- Calling a wrapper is undefined if there is no element of the type at the address any more. -/
theorem C75_dangling {c : Coll V} {w : World} {f : Wrapper} (hn : ∀ t n, ¬ Wraps E c f t n) (a : A) : f.call E S a c w = .ub := by
  refine invoke_ub (fun y hy ht => ?_) a
  cases hd : y.seg.be.derefLocal f.px with
  | none => rfl
  | some v =>
    exfalso
    unfold Backend.derefLocal Vec.deref at hd
    by_cases e : f.px.blk = y.seg.be.store.blk
    · rw [if_pos e] at hd
      have := (List.getElem?_eq_some_iff.1 hd).1
      refine hn _ f.px.off ⟨rfl, y, hy, ht, this, ?_⟩
      show f.px = ⟨y.seg.be.store.blk, f.px.off⟩
      rw [← e]
    · rw [if_neg e] at hd; cases hd

/-! ### Calling all elements -/

/-- What does not change if elements are called. -/
structure Called (E : Env V) (k : Kind) (c c' : Coll V) (w' : World) : Prop where
  reach : c'.Reachable E k w'
  types : c'.abs.types = c.abs.types
  iter : ∀ it p, c.At E it p → c'.At E it p
  liter : ∀ o l u j, LAt E c o l u j → LAt E c' o l u j
  caps : c'.map.nodes.map (fun n => (n.id, n.key, n.seg.capacity)) = c.map.nodes.map (fun n => (n.id, n.key, n.seg.capacity))

theorem OneChanged.called {c c' : Coll V} {w' : World} {t : Ty} {n : Nat} {f : V → V} (h : OneChanged E k c t n f c' w') : Called E k c c' w' :=
  ⟨h.reach, by rw [h.abs, Spec.State.update_types], h.iter, h.liter, h.caps⟩

theorem Called.trans {c c' c'' : Coll V} {w' w'' : World} (h : Called E k c c' w') (h' : Called E k c' c'' w'') : Called E k c c'' w'' :=
  ⟨h'.reach, h'.types.trans h.types, fun _ _ ha => h'.iter _ _ (h.iter _ _ ha), fun _ _ _ _ ha => h'.liter _ _ _ _ (h.liter _ _ _ _ ha), h'.caps.trans h.caps⟩

/-- The elements after calls of all from `r` on up to `j`. -/
def calledUpTo (S : Signature V A R) (a : A) (l : List (Ty × V)) (r j : Nat) : List (Ty × V) :=
  l.mapIdx fun i p => if r ≤ i ∧ i < j then (p.1, (S.act p.1 a).run p.2) else p

theorem calledUpTo_self {a : A} {l : List (Ty × V)} {r j : Nat} (h : j ≤ r ∨ l.length ≤ r) : calledUpTo S a l r j = l := by
  apply List.ext_getElem?
  intro i
  rw [calledUpTo, List.getElem?_mapIdx]
  by_cases hi : i < l.length
  · have : ¬ (r ≤ i ∧ i < j) := by omega
    simp [this]
  · simp [hi]

theorem calledUpTo_step {a : A} {l : List (Ty × V)} {r j : Nat} {t : Ty} {v : V} (h : l[r]? = some (t, v)) (hj : r < j) :
    calledUpTo S a (l.modify r fun p => (p.1, (S.act t a).run p.2)) (r + 1) j = calledUpTo S a l r j := by
  apply List.ext_getElem?
  intro i
  rw [calledUpTo, calledUpTo, List.getElem?_mapIdx, List.getElem?_mapIdx, List.getElem?_modify]
  by_cases e : r = i
  · subst e
    simp [h, hj]
    omega
  · have : r + 1 ≤ i ↔ r ≤ i := by omega
    simp [e, this]

theorem callAll_runs (hS : Plain E S) (a : A) (last : GIter) : ∀ (fuel : Nat) (it : GIter) (r : Nat) (c : Coll V) (w : World), c.Reachable E .split w →
    Algo.AtRank E c it r → c.At E last none → c.abs.flat.length < r + fuel →
    Runs (callAll E S last a it fuel) c w
      (fun rs c' w' => rs = (c.abs.typedFlat.drop r).map (fun p => S.ret p.1 p.2 a) ∧ Called E .split c c' w' ∧
        c'.abs.typedFlat = calledUpTo S a c.abs.typedFlat r c.abs.typedFlat.length)
      (fun e c' w' => e = .user ∧ Called E .split c c' w' ∧ ∃ j t v, r ≤ j ∧ c.abs.typedFlat[j]? = some (t, v) ∧ (S.act t a).nothrow = false ∧
        c'.abs.typedFlat = (calledUpTo S a c.abs.typedFlat r j).set j (t, (S.act t a).fail v))
  | 0, it, r, c, w, h, ⟨p, hp, hr⟩, hl, hf => by
    have := Spec.State.rank_le (hp.valid E h.map)
    omega
  | fuel + 1, it, r, c, w, h, hr, hl, hf => by
    have hle : r ≤ c.abs.flat.length := by
      obtain ⟨p, hp, rfl⟩ := hr
      exact Spec.State.rank_le (hp.valid E h.map)
    have heq := Algo.AtRank.eq E (h.inv.core E) hr ⟨none, hl, Algo.rank_none _⟩
    have hlen := Spec.State.typedFlat_length c.abs
    unfold callAll
    by_cases he : it.segpos = last.segpos
    · rw [if_pos he, runs_pure]
      have : r = c.abs.flat.length := heq.1 he
      refine ⟨by rw [List.drop_eq_nil_of_le (by omega)]; rfl, ⟨h, rfl, fun _ _ h => h, fun _ _ _ _ h => h, rfl⟩, ?_⟩
      rw [calledUpTo_self (Or.inr (by omega))]
    · rw [if_neg he]
      have hlt : r < c.abs.flat.length := by
        have : r ≠ c.abs.flat.length := fun h => he (heq.2 h)
        omega
      obtain ⟨p, hp, hpr⟩ := hr
      cases p with
      | none => rw [Algo.rank_none] at hpr; omega
      | some p =>
        obtain ⟨t, n⟩ := p
        have hval := hp.valid E h.map
        obtain ⟨f, h1, h2⟩ := C75_reference_partial h hS hp
        obtain ⟨v, hv⟩ := Spec.State.valid_at hval
        have hrank := Spec.State.typedFlat_rank (abs_nodup E h.map) hv
        rw [hpr] at hrank
        have hv' : ∀ v', (c.abs.elemsOf t)[n]? = some v' → v' = v := by
          intro v' hv'
          obtain ⟨l, hl, -⟩ := hval
          unfold Spec.State.elemsOf at hv'
          simp only [Spec.State.at?, hl] at hv hv'
          exact Option.some.inj (hv'.symm.trans hv)
        simp only [runs_bind, runs_get, h1, runs_some]
        refine (C75_call h h2 a).mono ?_ ?_
        · rintro x c' w' ⟨⟨v', h3, rfl⟩, h4⟩
          obtain rfl := hv' v' h3
          have hflat : c'.abs.typedFlat = c.abs.typedFlat.modify r (fun p => (p.1, (S.act t a).run p.2)) := by
            rw [h4.abs, Spec.State.typedFlat_modify (abs_nodup E h.map) hval, hpr]
          have hlen' : c'.abs.flat.length = c.abs.flat.length := by
            rw [← Spec.State.typedFlat_length, hflat, List.length_modify, hlen]
          have hr' : Algo.AtRank E c' it r := ⟨_, h4.iter _ _ hp, by rw [h4.abs, Spec.State.rank_modify, hpr]⟩
          obtain ⟨it', h5, h6⟩ := hr'.increment E h4.reach.inv (by omega)
          simp only [h5, runs_some]
          have ih := callAll_runs hS a last fuel it' (r + 1) c' w' h4.reach h6 (h4.iter _ _ hl) (by omega)
          have hup : ∀ j, r < j → calledUpTo S a c'.abs.typedFlat (r + 1) j = calledUpTo S a c.abs.typedFlat r j := fun j hj => by
            rw [hflat, calledUpTo_step hrank hj]
          refine ih.mono ?_ ?_
          · rintro rs c'' w'' ⟨rfl, h7, h8⟩
            rw [runs_pure]
            refine ⟨?_, h4.called.trans h7, ?_⟩
            · obtain ⟨hj, hv⟩ := List.getElem?_eq_some_iff.1 hrank
              rw [List.drop_eq_getElem_cons hj, hv, hflat, List.drop_modify_of_lt _ _ _ _ (Nat.lt_succ_self r)]
              rfl
            · rw [h8, hup _ (by rw [Spec.State.typedFlat_length]; omega), Spec.State.typedFlat_length, hlen', ← hlen]
          · rintro e c'' w'' ⟨rfl, h7, j, u, z, h8, h9, h10, h11⟩
            refine ⟨rfl, h4.called.trans h7, j, u, z, by omega, ?_, h10, by rw [h11, hup j (by omega)]⟩
            rw [hflat, List.getElem?_modify_ne _ _ (by omega)] at h9
            exact h9
        · rintro e c' w' ⟨rfl, h3, h4⟩
          refine ⟨rfl, h4.called, r, t, v, Nat.le_refl _, hrank, h3, ?_⟩
          rw [h4.abs, Spec.State.typedFlat_modify (abs_nodup E h.map) hval, hpr, calledUpTo_self (Or.inl (Nat.le_refl _))]
          apply List.ext_getElem?
          intro i
          rw [List.getElem?_modify, List.getElem?_set]
          by_cases e : r = i
          · subst e
            simp [hrank]
            omega
          · simp [e]

/-- **C75**, `for(auto& f:c)f(args...)`: every element is called once, in the order of traversal; if one throws,
the elements before it have been called and the ones after it have not.  Types, iterators and capacities stay.

Missing: types that overload unary `&`, see `C75_ampersand`. -/
theorem C75_call_all_partial {c : Coll V} {w : World} (h : c.Reachable E .split w) (hS : Plain E S) {it : GIter} (hb : c.begin E = some it) (a : A) {fuel : Nat}
    (hf : c.abs.flat.length < fuel) :
    Runs (callAll E S c.end a it fuel) c w
      (fun rs c' w' => rs = c.abs.typedFlat.map (fun p => S.ret p.1 p.2 a) ∧ Called E .split c c' w' ∧
        c'.abs.typedFlat = c.abs.typedFlat.map fun p => (p.1, (S.act p.1 a).run p.2))
      (fun e c' w' => e = .user ∧ Called E .split c c' w' ∧ ∃ pre t v post, c.abs.typedFlat = pre ++ (t, v) :: post ∧ (S.act t a).nothrow = false ∧
        c'.abs.typedFlat = pre.map (fun p => (p.1, (S.act p.1 a).run p.2)) ++ (t, (S.act t a).fail v) :: post) := by
  obtain ⟨it', h1, h2⟩ := begin_at E h.inv
  obtain rfl : it = it' := Option.some.inj (hb.symm.trans h1)
  refine (callAll_runs hS a c.end fuel it 0 c w h ⟨_, h2, Spec.State.rank_first (abs_nodup E h.map)⟩ (at_end E c) (by omega)).mono ?_ ?_
  · rintro rs c' w' ⟨rfl, h3, h4⟩
    refine ⟨rfl, h3, h4.trans ?_⟩
    apply List.ext_getElem?
    intro i
    rw [calledUpTo, List.getElem?_mapIdx, List.getElem?_map]
    by_cases hi : i < c.abs.typedFlat.length
    · simp [hi]
    · simp [hi]
  · rintro e c' w' ⟨rfl, h3, j, t, v, -, h5, h6, h7⟩
    obtain ⟨hj, hv⟩ := List.getElem?_eq_some_iff.1 h5
    refine ⟨rfl, h3, c.abs.typedFlat.take j, t, v, c.abs.typedFlat.drop (j + 1), ?_, h6, h7.trans ?_⟩
    · rw [← hv, List.getElem_cons_drop, List.take_append_drop]
    · apply List.ext_getElem?
      intro i
      rw [List.getElem?_set, calledUpTo, List.getElem?_mapIdx, List.length_mapIdx, List.getElem?_append, List.length_map, List.length_take, Nat.min_eq_left (by omega)]
      rcases Nat.lt_trichotomy i j with hi | hi | hi
      · have : ¬ j = i := by omega
        simp [hi, this]
      · subst hi; simp [hj]
      · have h1 : ¬ j = i := by omega
        have h2 : ¬ i < j := by omega
        obtain ⟨d, rfl⟩ : ∃ d, i = j + 1 + d := ⟨i - (j + 1), by omega⟩
        have h3 : j + 1 + d - j = d + 1 := by omega
        simp [h1, h2, h3]

/-! ### Insertion -/

/-- **C75**, insertion: as an argument of `insert`, a wrapper (static type `stat`, unlike that of the element) stands for
the element it wraps. -/
theorem C75_insert {c : Coll V} {w : World} (h : c.Reachable E k w) {f : Wrapper} {t : Ty} {n : Nat} (hf : Wraps E c f t n) {stat : TI}
    (hs : E.tiTy stat ≠ t) (acc : Bool) (at' : Addr) : ∃ v, (c.abs.elemsOf t)[n]? = some v ∧ DenotesOwn E .function c (f.expr stat acc at') t n v := by
  obtain ⟨h1, y, hy, rfl, h3, h4⟩ := hf
  have he := (Ens.refl E h.map hy).elems E h.map
  have hv : y.seg.elems[n]? = some (y.seg.elems[n]'(by rw [← Seg.size_eq]; exact h3)) := List.getElem?_eq_getElem _
  refine ⟨_, by rw [← he]; exact hv, ⟨fun h => (by cases h), fun _ e => absurd (e.symm.trans h1) hs⟩, rfl, h1.symm, y, hy, rfl, ?_, hv⟩
  show Addr.elem f.px 0 = _
  rw [h4]; rfl

/-! ### What goes wrong -/

/-- If unary `&` is overloaded (`callable_wrapper(Callable&)` uses it where the other models use `boost::addressof`),
the target of the wrapper is whatever it returns, and unless this happens to be an element of that type, the call
is undefined. -/
theorem C75_ampersand {c : Coll V} {w : World} (h : c.Reachable E .split w) {it : GIter} {t : Ty} {n : Nat} (hi : c.At E it (some (t, n))) :
    ∃ f l, c.wrapper S it.segpos = some f ∧ c.LAtL E l t n ∧ f.data = S.amp t l.pos ∧
      (E.tiTy (S.info t) = t → (∀ m, ¬ c.Points .terminal (S.amp t l.pos) t m) → ∀ a, f.call E S a c w = .ub) := by
  obtain ⟨y, hy, h1, h2, -, h4⟩ := wrapper_at (S := S) (h.inv.core E) h.kind hi.points
  refine ⟨_, ⟨c.map.itTo y, y.seg.loc n⟩, h4, ⟨y, use_itTo hy, h1, Nat.le_of_lt h2, rfl⟩, rfl, fun ht hm a => ?_⟩
  refine C75_dangling (fun u m hw => ?_) a
  have hu : t = u := ht.symm.trans hw.1
  subst hu
  exact hm m hw.2

/-- If the elements are wrappers themselves, which `is_acceptable` lets pass, the index is not made of wrappers
of the elements but of copies of them, and the last entry is a copy of an object that does not exist: the
index can never be built. -/
theorem C75_own_type {f : FSplit V} (ho : S.own f.x.ty = true) {start : Nat} (hs : start ≤ f.x.s.size) (w : World) :
    Leaves (FSplit.buildIndex E S start) f w (fun _ _ _ => False) (fun _ _ _ => True) :=
  leaves_bind.2 (leaves_get.2 (FSplit.each_own _ f w ho (List.mem_range'_1.2 ⟨hs, by omega⟩)))

/-- In particular the first one, when the type is registered, for which there is room. -/
theorem C75_own_type_register {f : FSplit V} (ho : S.own f.x.ty = true) (hs : f.x.s.elems = []) (w : World) : FSplit.buildIndex E S 0 f w = .ub := by
  have h1 : f.x.s.size = 0 := by simp [Vec.size, hs]
  have h2 : S.make f.x.ty (f.x.s.ptr 0) f.x.s.elems[0]? = none := by simp [Signature.make, ho, hs]
  show Prog.each _ (List.range' 0 (f.x.s.size + 1 - 0)) f w = _
  rw [h1]
  show Prog.bind (FSplit.pushIndex E S 0) _ f w = _
  rw [Prog.bind, FSplit.pushIndex_own h2]

/-! ### Examples -/

/-- A signature: calls with argument `a` add `a` to the element and return ten times what it was. -/
def sampleSig : Signature Nat Nat Nat :=
  ⟨fun t => 2 * t, fun _ v _ => 10 * v, fun _ a => ⟨fun v => v + a, fun _ => 0, true⟩, fun _ p => p, fun t => t == 9, fun v => ⟨v, ⟨0, 0⟩⟩⟩

theorem sampleSig_plain : Plain Sample.E0 sampleSig := ⟨fun _ _ => rfl, fun t => Nat.mul_div_cancel_left t (by decide)⟩

/-- Everything is called, in order. -/
example : ∃ it, (Sample.c0 .split).Reachable Sample.E0 .split (Sample.w0 .split) ∧ (Sample.c0 .split).begin Sample.E0 = some it ∧
    Runs (callAll Sample.E0 sampleSig (Sample.c0 .split).end 5 it 6) (Sample.c0 .split) (Sample.w0 .split)
      (fun rs c' _ => rs = [90, 10, 20, 30, 70] ∧ c'.abs.typedFlat = [(1, 14), (0, 6), (0, 7), (0, 8), (2, 12)]) (fun _ _ _ => False) := by
  refine ⟨_, Sample.reach0 _, rfl, (C75_call_all_partial (Sample.reach0 .split) sampleSig_plain rfl 5 (by rw [Sample.abs0]; decide)).mono ?_ ?_⟩
  · rintro rs c' w' ⟨rfl, -, h⟩
    rw [h, Sample.abs0]
    exact ⟨rfl, rfl⟩
  · rintro e c' w' ⟨-, -, pre, t, v, post, -, h, -⟩
    cases h

/-- The wrapper of the second element of segment 0: its targets, its use as an argument of `insert`, and a call. -/
example : ∃ it f, (Sample.c0 .split).At Sample.E0 it (some (0, 1)) ∧ (Sample.c0 .split).wrapper sampleSig it.segpos = some f ∧
    Wraps Sample.E0 (Sample.c0 .split) f 0 1 ∧ f.target Sample.E0 1 = some f.data ∧ f.target Sample.E0 2 = none ∧
    (∃ v, DenotesOwn Sample.E0 .function (Sample.c0 .split) (f.expr 20 true (.ext 0)) 0 1 v) ∧
    (match f.call Sample.E0 sampleSig 5 (Sample.c0 .split) (Sample.w0 .split) with
      | .ok r c' _ => some (r, c'.abs) | _ => none) = some (20, [(1, [9]), (0, [1, 7, 3]), (5, []), (2, [7])]) := by
  have hat : (Sample.c0 .split).At Sample.E0 ⟨⟨some 12, 4⟩, ⟨none, 4⟩, ⟨39, 1⟩⟩ (some (0, 1)) :=
    ⟨rfl, rfl, rfl, ⟨12, 0, ⟨.split ⟨0, 0, 0, ⟨40, 3, [1, 2, 3]⟩, ⟨39, 4, [⟨40, 0⟩, ⟨40, 1⟩, ⟨40, 2⟩, ⟨40, 3⟩]⟩⟩, ⟨39, 3⟩⟩⟩,
      .tail _ (.head _), rfl, rfl, by decide, rfl⟩
  obtain ⟨f, h1, h2⟩ := C75_reference_partial (Sample.reach0 .split) sampleSig_plain hat
  have hf : f = ⟨0, ⟨40, 1⟩⟩ := Option.some.inj (h1.symm.trans rfl)
  obtain ⟨v, -, h3⟩ := C75_insert (Sample.reach0 .split) h2 (stat := 20) (by decide) true (.ext 0)
  subst hf
  exact ⟨_, _, hat, h1, h2, rfl, rfl, ⟨v, h3⟩, rfl⟩

/-- A copy of the wrapper of the first of two elements, kept while an element is inserted after the first one, for which
there is room. -/
example : ∃ pos it f, (Sample.c2 .split).At Sample.E0 it (some (0, 0)) ∧ (Sample.c2 .split).wrapper sampleSig it.segpos = some f ∧
    Runs ((COp.emplacePosBase pos 0 (.emplaced 8)).run Sample.E0) (Sample.c2 .split) (Sample.w2 .split)
      (fun _ c' _ => LocalSurvives Sample.E0 (Sample.c2 .split) 0 0 c' ∧ Wraps Sample.E0 c' f 0 0) (fun _ _ _ => True) := by
  have hr := Sample.reach2 .split
  have ht : (0 : Ty) ∈ (Sample.c2 .split).abs.types := by rw [Sample.abs2]; decide
  have hl : ((Sample.c2 .split).abs.elemsOf 0).length = 2 := by rw [Sample.abs2]; rfl
  obtain ⟨a, ha⟩ := exists_latB hr.inv (n := 1) ht (by omega)
  obtain ⟨it, hi⟩ := exists_at hr.inv (p := some (0, 0)) (by rw [Sample.abs2]; exact ⟨_, rfl, by decide⟩)
  obtain ⟨f, h1, h2⟩ := C75_reference_partial hr sampleSig_plain hi
  have hs := C27_insert_local_iterators hr (op := .emplacePosBase a 0 (.emplaced 8)) (t := 0) (n := 1) ⟨rfl, rfl, ha⟩ (v := 8) (Or.inl ⟨rfl, rfl⟩)
    (fun x hx _ => by obtain ⟨h1, h2⟩ := Sample.room2 .split x hx; omega) (m := 0) (by decide) (by omega)
  refine ⟨a, it, f, hi, h1, hs.withEq.mono ?_ (fun _ _ _ _ => trivial)⟩
  rintro _ c' w' ⟨h3, h4⟩
  exact ⟨h3, C75_stays hr (hr.step (.emplacePosBase a 0 (.emplaced 8)) ⟨⟨8, Or.inl ⟨rfl, rfl⟩⟩, 1, ha⟩ h4) h2 h3⟩

/-- An overloaded unary `&` that returns a null pointer. -/
example : (match (Sample.c0 .split).wrapper { sampleSig with amp := fun _ _ => Ptr.null } ⟨39, 1⟩ with
    | some f => some (f.data, f.call Sample.E0 sampleSig 5 (Sample.c0 .split) (Sample.w0 .split)) | none => none) = some (Ptr.null, .ub) := rfl

/-- Building the index of three elements: the wrappers are those of the addresses; if there are no objects but
wrappers there, the fourth cannot be made. -/
example : ∃ f : FSplit Nat, sampleSig.own f.x.ty = false ∧ f.Made sampleSig ∧
    (match FSplit.buildIndex Sample.E0 sampleSig 0 f (Sample.w0 .split) with | .ok _ f' _ => some f'.ws | _ => none) =
      some [⟨0, ⟨40, 0⟩⟩, ⟨0, ⟨40, 1⟩⟩, ⟨0, ⟨40, 2⟩⟩, ⟨0, ⟨40, 3⟩⟩] ∧
    sampleSig.own { f.x with ty := 9 }.ty = true ∧ FSplit.buildIndex Sample.E0 sampleSig 0 ⟨{ f.x with ty := 9 }, f.ws⟩ (Sample.w0 .split) = .ub :=
  ⟨⟨⟨0, 0, 0, ⟨40, 3, [1, 2, 3]⟩, ⟨39, 4, []⟩⟩, []⟩, rfl, rfl, rfl, rfl, rfl⟩

end PolyColl.Props
