import Verif.Spec.Follow
import Verif.Lemmas.Follow
import Verif.Props.Iterators
import Verif.Props.Descriptor
import Verif.Props.SampleFollow
/-! # Property C91: iterators that a program keeps -/

namespace PolyColl.Props
open PolyColl Prog Coll

variable {V : Type} {E : Env V} {k : Kind}

/-- The elements before the insertion or erasure point are at the same addresses, base iterators being another matter. -/
def Exact (E : Env V) (k : Kind) : Prop := k = .packed ∨ ∀ n, E.lib.reserveCap n = n

theorem _root_.PolyColl.Coll.Prefix.anchored' {same same' : Prop} {c c' : Coll V} {w' : World} {t : Ty} {j m : Nat} (h : Prefix E c t j same c') (hs : same' → same)
    (hc' : c'.Inv E w') (hm : m < j) : Anchored E same' c t m id c' := by
  intro n hn ht hlt
  obtain ⟨n', h1, h2, h3, h4, h5, h6⟩ := h.anchored hc' hm n hn ht hlt
  exact ⟨n', h1, h2, h3, h4, fun e => h5 (hs e), h6⟩

/-- What becomes of the element, whether the operation returns or throws. -/
theorem passes_anchored {sub : Ty → TI} (hsub : ∀ t, E.tiTy (sub t) = t) {op : Op V} {s : Sys V} {w : World} (hs : SysInv E k s w) {t : Ty} {m : Nat}
    {b : Bool} {x y : Nat} {f : V → V} (h : op.Passes E k s w t m b x y f) (hm : m < ((s x).abs.elemsOf t).length) :
    Leaves (op.run E k sub) s w (fun _ s' _ => b = true → Anchored E (Exact E k) (s x) t m f (s' y))
      (fun _ s' _ => b = false → Anchored E (Exact E k) (s x) t m f (s' y)) := by
  have one : ∀ {α : Type} {p : Prog (Coll V) α} {x : Nat} {f : V → V},
      Runs p (s x) w (fun _ c _ => Anchored E (Exact E k) (s x) t m f c) (fun _ _ _ => True) →
      Leaves (Sys.on x p) s w (fun _ s' _ => true = true → Anchored E (Exact E k) (s x) t m f (s' x))
        (fun _ s' _ => true = false → Anchored E (Exact E k) (s x) t m f (s' x)) := by
    intro α p x f h
    unfold Sys.on
    rw [leaves_zoom]
    refine h.leaves.mono ?_ (fun _ _ _ _ he => by cases he)
    intro _ c w' h _
    simpa [Sys.put] using h
  have both : ∀ {α : Type} {b : Bool} {p : Prog (Coll V) α} {x : Nat} {f : V → V},
      Runs p (s x) w (fun _ c _ => b = true → Anchored E (Exact E k) (s x) t m f c) (fun _ c _ => b = false → Anchored E (Exact E k) (s x) t m f c) →
      Leaves (Sys.on x p) s w (fun _ s' _ => b = true → Anchored E (Exact E k) (s x) t m f (s' x))
        (fun _ s' _ => b = false → Anchored E (Exact E k) (s x) t m f (s' x)) := by
    intro α b p x f h
    unfold Sys.on
    rw [leaves_zoom]
    refine h.leaves.mono ?_ ?_
    · intro _ c w' h hb
      simpa [Sys.put] using h hb
    · intro _ c w' h hb
      simpa [Sys.put] using h hb
  have exact' : ∀ {x : Nat}, (s x).Reachable E k w → Exact E k → (s x).kind = .packed ∨ ExactReserve E := by
    intro x hr h
    refine h.imp ?_ id
    rintro rfl
    exact hr.kind
  cases h with
  | aside hx =>
    refine (run_changes E sub op s w hs).mono ?_ ?_
    · intro _ s' w' h _
      rw [h x (fun e => hx ((Op.changes_iff op x).2 e))]; exact .refl _ _ _
    · intro _ s' w' h _
      rw [h x (fun e => hx ((Op.changes_iff op x).2 e))]; exact .refl _ _ _
  | @other cop b x hr hp ht =>
    exact both ((op_spares cop (s x) w hr.inv hp t ht).mono (fun _ _ _ h _ => h.anchored m) (fun _ _ _ h _ => h.anchored m))
  | @coll b x j f l p q hr hf hl hpq ht =>
    simp only [Op.run, leaves_bind, leaves_get, leaves_ite]
    refine ⟨fun e => trivial, fun _ => both ?_⟩
    refine (insertColl_runs E hsub (s j) w hr.right.inv hf hl hpq (s x) w hr.left.inv (hr.right.kind.trans hr.left.kind.symm)).mono ?_ ?_
    · rintro _ c' w' ⟨p', hi⟩ _
      exact (hi.spares hr.left.inv ht).anchored m
    · rintro _ c' w' hi _
      exact (hi.spares hr.left.inv ht).anchored m
  | @localColl b x j f l u a c hr hf hl hac ht =>
    have hu' : t ∉ ((slice (s j).abs u a c).map fun v => (u, v)).map Prod.fst := by
      simp only [List.map_map, List.mem_map, Function.comp, not_exists, not_and]
      exact fun _ _ he => ht he.symm
    simp only [Op.run, leaves_bind, leaves_get, leaves_ite]
    refine ⟨fun e => trivial, fun _ => both ?_⟩
    refine (insertLocalColl_runs E hsub (s j) w hr.right.inv hf hl hac (s x) w hr.left.inv (hr.right.kind.trans hr.left.kind.symm)).mono ?_ ?_
    · rintro _ c' w' ⟨p', hi⟩ _
      exact (hi.spares hr.left.inv hu').anchored m
    · rintro _ c' w' hi _
      exact (hi.spares hr.left.inv hu').anchored m
  | @hintColl b x j h r f l p q hr hh hf hl hpq hok ht =>
    simp only [Op.run, leaves_bind, leaves_get, leaves_ite]
    refine ⟨fun e => trivial, fun _ => both ?_⟩
    simp only [runs_drop]
    refine (insertHintColl_runs E hsub (s j) w hr.right.inv hf hl hpq h r (s x) w hr.left.inv (hr.right.kind.trans hr.left.kind.symm) hh hok).mono ?_ ?_
    · rintro _ c' w' ⟨p', hi, -⟩ _
      exact (hi.spares hr.left.inv ht).anchored m
    · rintro _ c' w' hi _
      exact (hi.spares hr.left.inv ht).anchored m
  | @hintLocalColl b x j h r f l u a c hr hh hf hl hac hok ht =>
    have hu' : t ∉ ((slice (s j).abs u a c).map fun v => (u, v)).map Prod.fst := by
      simp only [List.map_map, List.mem_map, Function.comp, not_exists, not_and]
      exact fun _ _ he => ht he.symm
    simp only [Op.run, leaves_bind, leaves_get, leaves_ite]
    refine ⟨fun e => trivial, fun _ => both ?_⟩
    simp only [runs_drop]
    refine (insertHintLocalColl_runs E hsub (s j) w hr.right.inv hf hl hac h r (s x) w hr.left.inv (hr.right.kind.trans hr.left.kind.symm) hh hok).mono ?_ ?_
    · rintro _ c' w' ⟨p', hi, -⟩ _
      exact (hi.spares hr.left.inv hu').anchored m
    · rintro _ c' w' hi _
      exact (hi.spares hr.left.inv hu').anchored m
  | @insert cop x n src v hr hi hv hroom hmn =>
    refine one ((inserts_runs hr.inv hi hv).mono ?_ (fun _ _ _ _ => trivial))
    rintro _ c' w' ⟨h1, -⟩
    exact (h1.prefix hr.inv (elem_lt hr.map hm).1 hroom).anchored' (exact' hr) (h1.inv E hr.inv) hmn
  | @failed cop x n src v hr hi hv hk hsh =>
    refine both ((inserts_runs hr.inv hi hv).mono (fun _ _ _ _ hb => by cases hb) ?_)
    rintro e c' w' h1 -
    have hun := (h1.unharmed hr.inv hk hsh).1
    exact fun a ha ht hlt => ⟨a, hun.nodes a ha, rfl, ht, hlt, fun _ => rfl, rfl, by simp, id⟩
  | @insertRange x pos as n hr hp ha hroom hmn =>
    obtain ⟨vs, hv⟩ := mapVals (f := fun a : Arg V => a.src.val Vec.nil) (fun a h => ext_val (ha a h).2.1)
    refine one ?_
    simp only [COp.run, runs_drop]
    refine (insertPosRangeBase_runs E pos t n as vs True (s x) w hr.inv hp (fun a h => ⟨(ha a h).1, (ha a h).2.1, fun _ => trivial⟩) hv).mono ?_ (fun _ _ _ _ => trivial)
    rintro _ c' w' ⟨h1, -⟩
    have hlen : as.length = vs.length := by have := congrArg List.length hv; simpa using this
    exact (h1.prefix hr.inv (elem_lt hr.map hm).1 (hlen ▸ hroom)).anchored' (exact' hr) (h1.inv E hr.inv) hmn
  | @insertRangeLocal x pos u srcs n hr hu hp ha hroom hmn =>
    subst hu
    obtain ⟨vs, hv⟩ := mapVals (f := Src.val Vec.nil) (fun a h => ext_val (ha a h))
    refine one ?_
    simp only [COp.run, runs_drop]
    refine (insertPosRangeLocal_runs E pos u n srcs vs True (s x) w hr.inv hp (fun a h => ⟨ha a h, fun _ => trivial⟩) hv).mono ?_ (fun _ _ _ _ => trivial)
    rintro _ c' w' ⟨h1, -⟩
    have hlen : srcs.length = vs.length := by have := congrArg List.length hv; simpa using this
    exact (h1.prefix hr.inv (elem_lt hr.map hm).1 (hlen ▸ hroom)).anchored' (exact' hr) (h1.inv E hr.inv) hmn
  | @erase x pos n hr hp hmn =>
    refine one ((erases_runs (op := .erase pos) hr.inv hp (elem_lt hr.map hm).1).mono ?_ (fun _ _ _ _ => trivial))
    rintro _ c' w' ⟨h1, h2⟩
    exact h2.anchored' (fun _ => trivial) h1 hmn
  | @eraseLocalBase x pos n hr hp hn hmn =>
    refine one ((erases_runs (op := .eraseLocalBase pos) hr.inv ⟨hp, hn⟩ (elem_lt hr.map hm).1).mono ?_ (fun _ _ _ _ => trivial))
    rintro _ c' w' ⟨h1, h2⟩
    exact h2.anchored' (fun _ => trivial) h1 hmn
  | @eraseLocal x pos n hr hp hn hmn =>
    refine one ((erases_runs (op := .eraseLocal pos) hr.inv ⟨hp, hn⟩ (elem_lt hr.map hm).1).mono ?_ (fun _ _ _ _ => trivial))
    rintro _ c' w' ⟨h1, h2⟩
    exact h2.anchored' (fun _ => trivial) h1 hmn
  | @eraseLocalRangeBase x f l n c hr hf hl hnc hmn =>
    refine one ((erases_runs (op := .eraseLocalRangeBase f l) hr.inv ⟨hf, c, hl, hnc⟩ (elem_lt hr.map hm).1).mono ?_ (fun _ _ _ _ => trivial))
    rintro _ c' w' ⟨h1, h2⟩
    exact h2.anchored' (fun _ => trivial) h1 hmn
  | @eraseLocalRange x f l n c hr hf hl hnc hmn =>
    refine one ((erases_runs (op := .eraseLocalRange f l) hr.inv ⟨hf, c, hl, hnc⟩ (elem_lt hr.map hm).1).mono ?_ (fun _ _ _ _ => trivial))
    rintro _ c' w' ⟨h1, h2⟩
    exact h2.anchored' (fun _ => trivial) h1 hmn
  | @eraseRange x f l p q hr hf hl hpq hlt =>
    refine one ?_
    simp only [COp.run, runs_drop]
    refine (eraseRange_runs E f l p q (s x) w hr.inv hf hl hpq).mono ?_ (fun _ _ _ _ => trivial)
    rintro _ c' w' ⟨hrem, -⟩
    have ht := (elem_lt hr.map hm).1
    have hpre : Prefix E (s x) t (m + 1) True c' := by
      refine hrem.prefix hr.map ?_
      cases hg : (s x).abs.get t with
      | none => exact absurd ht (Spec.State.get_none.1 hg)
      | some r =>
        have he : (s x).abs.elemsOf t = r := by unfold Spec.State.elemsOf; rw [hg]
        rw [he, removeRange_before hr.nodup hg (he ▸ hm) hlt hpq]
    exact hpre.anchored' (fun _ => trivial) hrem.inv (Nat.lt_succ_self m)
  | @write b x o p n a hr hp =>
    refine both ?_
    simp only [COp.run, runs_drop]
    refine (apply_runs o p a (s x) w (hr.inv.core E) hp).mono ?_ ?_
    · rintro v c' w' ⟨-, h⟩ hb
      subst hb
      exact h.anchored hr.inv m
    · rintro e c' w' ⟨-, -, h⟩ hb
      subst hb
      exact h.anchored hr.inv m
  | swap =>
    simp only [Op.run, leaves_ite]
    refine ⟨fun h => ?_, fun h => ?_⟩
    · subst h; exact fun _ => .refl _ _ _
    · unfold Sys.on2 Coll.swap Coll.onMaps TMap.swap
      simp only [leaves_zoom, leaves_bind, leaves_get, leaves_ite, leaves_set, leaves_undef]
      exact ⟨fun _ _ => .of_nodes (by simp [Sys.put]) t m, fun _ => trivial⟩
  | swap' =>
    simp only [Op.run, leaves_ite]
    refine ⟨fun h => ?_, fun h => ?_⟩
    · subst h; exact fun _ => .refl _ _ _
    · unfold Sys.on2 Coll.swap Coll.onMaps TMap.swap
      simp only [leaves_zoom, leaves_bind, leaves_get, leaves_ite, leaves_set, leaves_undef]
      exact ⟨fun _ _ => .of_nodes (by simp [Sys.put, h]) t m, fun _ => trivial⟩
  | move =>
    simp only [Op.run, leaves_ite]
    refine ⟨fun h => trivial, fun h => ?_⟩
    unfold Sys.construct Sys.on Coll.move Coll.onMap TMap.move
    simp only [leaves_zoom, leaves_bind, leaves_get, leaves_set, leaves_pure]
    exact fun _ => .of_nodes (by simp [Sys.put]) t m
  | moveAl =>
    simp only [Op.run, leaves_ite]
    refine ⟨fun h => trivial, fun h => ?_⟩
    unfold Sys.construct Sys.on Coll.moveAl Coll.onMap TMap.moveAl
    simp only [leaves_zoom, leaves_bind, leaves_get, leaves_ite, leaves_set, leaves_pure]
    exact ⟨fun _ _ => .of_nodes (by simp [Sys.put]) t m, fun h => absurd trivial h⟩
  | moveAssign he =>
    simp only [Op.run, leaves_ite]
    refine ⟨fun h => ?_, fun h => ?_⟩
    · subst h; exact fun _ => .refl _ _ _
    · unfold Sys.on2 Coll.moveAssign Coll.onMaps TMap.moveAssign
      simp only [leaves_zoom, leaves_onExc, leaves_bind, leaves_get, leaves_ite, leaves_set]
      exact ⟨fun _ _ => .of_nodes (by simp [Sys.put, h]) t m, fun h => absurd he h⟩

theorem passes_carries {op : Op V} {s : Sys V} {w : World} {t : Ty} {m : Nat} {b : Bool} {x y : Nat} {f : V → V} (h : op.Passes E k s w t m b x y f) :
    op.Carries E s x y := by
  cases h with
  | aside hx =>
    refine .stay fun hr => hx ((Op.changes_iff op x).2 ?_)
    cases op <;> simp_all [Op.Replaces, Op.writes]
  | swap => exact .swap
  | swap' => exact .swap'
  | move => exact .move
  | moveAl => exact .moveAl
  | moveAssign he => exact .moveAssign he
  | _ => exact .stay id

theorem follow_path {sub : Ty → TI} {t : Ty} {m : Nat} {s s' : Sys V} {w w' : World} {x y : Nat} {f : V → V} (h : Follow E k sub t m s w x s' w' y f) :
    Path E k sub s w x s' w' y := by
  induction h with
  | nil => exact .nil
  | ok op _ ha hr hp ih => exact .ok op ih ha hr (passes_carries hp)
  | exc op _ ha hr hp ih => exact .exc op ih ha hr (passes_carries hp)

theorem anchored_elem {same : Prop} {c c' : Coll V} {w w' : World} {t : Ty} {m : Nat} {f : V → V} (h : Anchored E same c t m f c')
    (hc : c.map.Inv E c.kind w) (hc' : c'.map.Inv E c'.kind w') (hm : m < (c.abs.elemsOf t).length) :
    (c'.abs.elemsOf t)[m]? = ((c.abs.elemsOf t)[m]?).map f ∧ m < (c'.abs.elemsOf t).length := by
  obtain ⟨ht, hlt⟩ := elem_lt hc hm
  obtain ⟨n, hn, rfl⟩ := types_mem ht
  obtain ⟨n', g1, g2, g3, g4, g5, g6, g7, g8⟩ := h n hn rfl (hlt n hn rfl)
  have h1 := (Ens.refl E hc hn).elems E hc
  have h2 := (Ens.refl E hc' g1).elems E hc'
  rw [g3] at h2
  rw [← h1, ← h2]
  exact ⟨g7, g4⟩

theorem follow_anchored {sub : Ty → TI} (hsub : ∀ t, E.tiTy (sub t) = t) {t : Ty} {m : Nat} {s s' : Sys V} {w w' : World} {x y : Nat} {f : V → V}
    (hs : SysInv E k s w) (h : Follow E k sub t m s w x s' w' y f) (hm : m < ((s x).abs.elemsOf t).length) :
    SysInv E k s' w' ∧ Anchored E (Exact E k) (s x) t m f (s' y) := by
  have inv : ∀ {s : Sys V} {w : World}, SysInv E k s w → ∀ i, (s i).map.Inv E (s i).kind w := fun hs i => by
    rw [(hs.1 i).1]; exact (hs.1 i).2
  induction h with
  | nil => exact ⟨hs, .refl _ _ _⟩
  | ok op _ ha hr hp ih =>
    obtain ⟨h1, h2⟩ := ih
    have hm' := (anchored_elem h2 (inv hs _) (inv h1 _) hm).2
    exact ⟨(leaves_ok (Coll.run_inv E hsub op ha _ _ h1) hr).1, h2.trans (leaves_ok (passes_anchored hsub h1 hp hm') hr rfl)⟩
  | exc op _ ha hr hp ih =>
    obtain ⟨h1, h2⟩ := ih
    have hm' := (anchored_elem h2 (inv hs _) (inv h1 _) hm).2
    exact ⟨(leaves_exc (Coll.run_inv E hsub op ha _ _ h1) hr).1, h2.trans (leaves_exc (passes_anchored hsub h1 hp hm') hr rfl)⟩

/-- What is said of an iterator a program kept.  Element `m` of type `t` of `c` is element `m` of type `t` of `c'`, its value being what `f` makes of
it; iterators and local base iterators to it can be used to read it and, as long as the map is not rehashed, in every way.  -/
structure Kept (E : Env V) (c : Coll V) (t : Ty) (m : Nat) (f : V → V) (c' : Coll V) : Prop where
  elem : (c'.abs.elemsOf t)[m]? = ((c.abs.elemsOf t)[m]?).map f
  deref : ∀ it, c.At E it (some (t, m)) → c'.map.deref it.segpos = (c.map.deref it.segpos).map f
  derefBase : ∀ l, c.LAtB E l t m → c'.map.deref l.pos = (c.map.deref l.pos).map f
  iters : (E.strictRehash = false ∨ c'.map.gen = c.map.gen) → ∀ it, c.At E it (some (t, m)) → c'.At E it (some (t, m))
  baseIters : (E.strictRehash = false ∨ c'.map.gen = c.map.gen) → ∀ l, c.LAtB E l t m → c'.LAtB E l t m

/-- The same for local iterators. -/
structure LocalKept (E : Env V) (c : Coll V) (t : Ty) (m : Nat) (f : V → V) (c' : Coll V) : Prop where
  elem : (c'.abs.elemsOf t)[m]? = ((c.abs.elemsOf t)[m]?).map f
  derefLocal : ∀ l, c.LAtL E l t m → c'.derefLocal l.pos = (c.derefLocal l.pos).map f
  localIters : (E.strictRehash = false ∨ c'.map.gen = c.map.gen) → ∀ l, c.LAtL E l t m → c'.LAtL E l t m

/-- **C91.**  A program keeps an iterator to an element, and does in the meantime anything to its collections that is documented not to invalidate
it.  Then the iterator still refers to the element: in the collection that has it now, at the same position and with the value the program
gave it.  Missing: `any_collection` and `function_collection` with a standard library whose `vector::reserve` allocates more than it
is asked for (`C27_index_moves`), and advancing the iterator after the map has been rehashed (`C58_increment_after_rehash`). -/
theorem C91_kept_partial {sub : Ty → TI} {H H' : Nat → Health} {s s' : Sys V} {w w' : World} {x y : Nat} {t : Ty} {m : Nat} {f : V → V}
    (h : s.Reached E k sub H w) (hx : H x = .sound) (hm : m < ((s x).abs.elemsOf t).length) (hp : Follow E k sub t m s w x s' w' y f)
    (h' : s'.Reached E k sub H' w') (hy : H' y ≠ .lost) (hex : k = .packed ∨ ∀ n, E.lib.reserveCap n = n) : Kept E (s x) t m f (s' y) := by
  obtain ⟨-, ha⟩ := follow_anchored h.ids h.good.inv hp hm
  have hi := h.inv hx
  have hw := (h'.good.1 y).weak E hy
  have he := (anchored_elem ha (h.map x) (h'.map y) hm).1
  have key : ∀ n ∈ (s x).map.nodes, n.seg.ty = t → (s' y).map.deref (n.seg.base m) = ((s x).map.deref (n.seg.base m)).map f := by
    intro n hn ht
    have hlt := (elem_lt (h.map x) hm).2 n hn ht
    obtain ⟨n', g1, g2, g3, g4, g5, g6, g7, g8⟩ := ha n hn ht hlt
    have hco := (hw.mem.segs n' g1).core E (g8 ((hi.mem.segs n hn).core.whole E))
    rw [← g5 hex, deref_mem E hw.mem g1 hco g4, g5 hex, deref_node E (hi.core E) hn hlt, g7]
  refine ⟨he, fun it hit => ?_, fun l hl => ?_, fun hr it hit => ?_, fun hr l hl => ?_⟩
  · obtain ⟨n, hn, -, ht, -, hpos⟩ := hit.pos
    rw [hpos]; exact key n hn ht
  · obtain ⟨n, hu, ht, -, hpos⟩ := hl
    rw [hpos]; exact key n hu.mem ht
  · obtain ⟨n, hn, h1, ht, h3, h4⟩ := hit.pos
    obtain ⟨n', g1, g2, g3, g4, g5, g6, g7, g8⟩ := ha n hn ht h3
    exact ⟨TMap.usable_of_gen hr hit.usable, TMap.usable_of_gen hr hit.endUsable, hit.endNode, n', g1, by rw [h1, g2], g3, g4, by rw [h4, g5 hex]⟩
  · obtain ⟨n, hu, ht, -, h4⟩ := hl
    obtain ⟨n', g1, g2, g3, g4, g5, g6, g7, g8⟩ := ha n hu.mem ht ((elem_lt (h.map x) hm).2 n hu.mem ht)
    exact ⟨n', ⟨g1, by rw [hu.node, g2], TMap.usable_of_gen hr hu.usable⟩, g3, Nat.le_of_lt g4, by rw [h4, g5 hex]⟩

/-- An element is created behind the element, it is written to, an insertion of another type fails, the collection is swapped with another
one, the element behind is erased, and the collection is moved to a third one: the iterator refers to the first element of that one. -/
example (k : Kind) := C91_kept_partial (Sample.f4_reached k) (x := 0) rfl (by rw [Sample.f4_elems]; decide) (Sample.f_follow k) (Sample.f10_reached k) (by decide)
  (.inr fun _ => rfl)

example (k : Kind) : ((Sample.f4 k).1 0).At Sample.E0 (Sample.fit k) (some (0, 0)) ∧ ((Sample.f10 k).1 2).At Sample.E0 (Sample.fit k) (some (0, 0)) ∧
    ((Sample.f4 k).1 0).map.deref (Sample.fit k).segpos = some 5 ∧ ((Sample.f10 k).1 2).map.deref (Sample.fit k).segpos = some 50 ∧
    ((Sample.f10 k).1 2).abs.elemsOf 0 = [50, 8] := by
  refine ⟨Sample.f4_at k, (C91_kept_partial (Sample.f4_reached k) (x := 0) rfl (by rw [Sample.f4_elems]; decide) (Sample.f_follow k) (Sample.f10_reached k)
    (by decide) (.inr fun _ => rfl)).iters (.inr ?_) _ (Sample.f4_at k), ?_, ?_, Sample.f10_elems k⟩ <;> cases k <;> decide +kernel

/-- **C91** for local iterators, with every standard library.  Missing: advancing them after the map has been rehashed, as above. -/
theorem C91_local_partial {sub : Ty → TI} {H H' : Nat → Health} {s s' : Sys V} {w w' : World} {x y : Nat} {t : Ty} {m : Nat} {f : V → V}
    (h : s.Reached E k sub H w) (hx : H x = .sound) (hm : m < ((s x).abs.elemsOf t).length) (hp : Follow E k sub t m s w x s' w' y f)
    (h' : s'.Reached E k sub H' w') (hy : H' y ≠ .lost) : LocalKept E (s x) t m f (s' y) := by
  obtain ⟨-, ha⟩ := follow_anchored h.ids h.good.inv hp hm
  have hi := h.inv hx
  have hw := (h'.good.1 y).weak E hy
  have he := (anchored_elem ha (h.map x) (h'.map y) hm).1
  refine ⟨he, fun l hl => ?_, fun hr l hl => ?_⟩
  · obtain ⟨n, hu, ht, -, hpos⟩ := hl
    have hlt := (elem_lt (h.map x) hm).2 n hu.mem ht
    obtain ⟨n', g1, g2, g3, g4, g5, g6, g7, g8⟩ := ha n hu.mem ht hlt
    have hco := (hw.mem.segs n' g1).core E (g8 ((hi.mem.segs n hu.mem).core.whole E))
    rw [hpos, ← g6, derefLocal_mem hw.mem g1 hco g4, g6, derefLocal_node (hi.core E) hu.mem hlt, g7]
  · obtain ⟨n, hu, ht, -, h4⟩ := hl
    obtain ⟨n', g1, g2, g3, g4, g5, g6, g7, g8⟩ := ha n hu.mem ht ((elem_lt (h.map x) hm).2 n hu.mem ht)
    exact ⟨n', ⟨g1, by rw [hu.node, g2], TMap.usable_of_gen hr hu.usable⟩, g3, Nat.le_of_lt g4, by rw [h4, g6]⟩

example (k : Kind) := C91_local_partial (Sample.f4_reached k) (x := 0) rfl (by rw [Sample.f4_elems]; decide) (Sample.f_follow k) (Sample.f10_reached k) (by decide)

example (k : Kind) : ((Sample.f4 k).1 0).LAtL Sample.E0 (Sample.fit' k) 0 0 ∧ ((Sample.f10 k).1 2).LAtL Sample.E0 (Sample.fit' k) 0 0 := by
  refine ⟨Sample.f4_latL k, (C91_local_partial (Sample.f4_reached k) (x := 0) rfl (by rw [Sample.f4_elems]; decide) (Sample.f_follow k) (Sample.f10_reached k)
    (by decide)).localIters (.inr ?_) _ (Sample.f4_latL k)⟩
  cases k <;> decide +kernel

/-- **C91**, if no type was registered in the meantime: the map is not rehashed, and the iterators can be used in every way. -/
theorem C91_registered_partial {sub : Ty → TI} {H H' : Nat → Health} {s s' : Sys V} {w w' : World} {x y : Nat} {t : Ty} {m : Nat} {f : V → V}
    (h : s.Reached E k sub H w) (hx : H x = .sound) (hm : m < ((s x).abs.elemsOf t).length) (hp : Follow E k sub t m s w x s' w' y f)
    (h' : s'.Reached E k sub H' w') (hy : H' y ≠ .lost) (hr : ∀ u ∈ (s' y).abs.types, u ∈ (s x).abs.types) :
    (∀ l, (s x).LAtL E l t m → (s' y).LAtL E l t m) ∧
    ((k = .packed ∨ ∀ n, E.lib.reserveCap n = n) → (∀ it, (s x).At E it (some (t, m)) → (s' y).At E it (some (t, m))) ∧
      ∀ l, (s x).LAtB E l t m → (s' y).LAtB E l t m) := by
  have hg : (s' y).map.gen = (s x).map.gen := by
    rcases (SegRef.path_carried E h.ids h.good.inv (follow_path hp)).2.gen with e | ⟨u, h1, h2⟩
    · exact e
    · exact absurd (hr u h1) h2
  refine ⟨(C91_local_partial h hx hm hp h' hy).localIters (.inr hg), fun hex => ?_⟩
  have := C91_kept_partial h hx hm hp h' hy hex
  exact ⟨this.iters (.inr hg), this.baseIters (.inr hg)⟩

example (k : Kind) := C91_registered_partial (Sample.f4_reached k) (x := 0) rfl (by rw [Sample.f4_elems]; decide) (Sample.f_follow k) (Sample.f10_reached k)
  (by decide) (by cases k <;> decide +kernel)

/-- **C91** fails for advancing whenever the map was rehashed in the meantime, if this invalidates the iterators of the map, as the standard has it:
the program can read the element through its iterator, but not go on from there. -/
theorem C91_rehash {sub : Ty → TI} {H H' : Nat → Health} {s s' : Sys V} {w w' : World} {x y : Nat} {t : Ty} {m : Nat} {f : V → V}
    (h : s.Reached E k sub H w) (hx : H x = .sound) (hm : m < ((s x).abs.elemsOf t).length) (hp : Follow E k sub t m s w x s' w' y f)
    (h' : s'.Reached E k sub H' w') (hy : H' y ≠ .lost) (hex : k = .packed ∨ ∀ n, E.lib.reserveCap n = n) (hs : E.strictRehash = true)
    (hg : (s' y).map.gen ≠ (s x).map.gen) {it : GIter} (hit : (s x).At E it (some (t, m))) :
    (∃ v, (s' y).map.deref it.segpos = some v) ∧ (s' y).map.increment E it = none := by
  refine ⟨?_, TMap.increment_stale hs hg hit.usable⟩
  obtain ⟨v, hv⟩ := elem_some hm
  exact ⟨f v, by rw [(C91_kept_partial h hx hm hp h' hy hex).deref it hit, deref_pos (h.inv hx) hit hv]; rfl⟩

/-- Another type is registered. -/
example (k : Kind) : ∃ s' w', (Op.on 0 (.registerTypes [6])).run Sample.E0 k (fun t => 2 * t) (Sample.f4 k).1 (Sample.f4 k).2 = .ok () s' w' ∧
    Follow Sample.E0 k (fun t => 2 * t) 0 0 (Sample.f4 k).1 (Sample.f4 k).2 0 s' w' 0 (id ∘ id) ∧ s'.Reached Sample.E0 k (fun t => 2 * t) Sample.fine w' ∧
    (s' 0).map.gen ≠ ((Sample.f4 k).1 0).map.gen := by
  have h0 : Sample.how k (Sample.f4 k) (.on 0 (.registerTypes [6])) = 0 := by cases k <;> decide +kernel
  have h1 := Sample.next_ok h0
  exact ⟨_, _, h1, .ok _ .nil (by simp [Op.args, COp.args]) h1 (.other ((Sample.f4_reached k).coll (i := 0) rfl) trivial id), Sample.fine_ok (Sample.f4_reached k) trivial h0,
    by cases k <;> decide +kernel⟩

end PolyColl.Props
