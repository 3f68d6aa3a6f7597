import Verif.Props.Insertion
import Verif.Props.Exceptions
import Verif.Lemmas.Object
/-!
# Property C70: insertion takes the whole object

Arguments of `insert` are seen through references to a base, through wrappers, or as they are.
-/

namespace PolyColl.Props
open PolyColl Prog Coll

variable {V : Type} {E : Env V} {k : Kind}

/-- The argument `x` designates an object outside the collection, of type `t` and with value `v`. -/
def Denotes (E : Env V) (m : PModel) (mem : Mem V) (x : Expr) (t : Ty) (v : V) : Prop :=
  x.Wf E m ∧ t = E.tiTy (x.object m).1 ∧ ∃ a, (x.object m).2 = .ext a ∧ mem a t = some v

/-- The way an object is passed on: moved from if the reference is a non-const rvalue. -/
def passed (x : Expr) (v : V) : Src V := if x.rvalue then .moveExt v else .copyExt v

theorem Denotes.fetch {m : PModel} {mem : Mem V} {x : Expr} {t : Ty} {v : V} (h : Denotes E m mem x t v) :
    PolyColl.fetch mem (E.tiTy (x.object m).1) (x.object m).2 x.rvalue = some (passed x v) := by
  obtain ⟨-, rfl, a, h1, h2⟩ := h
  rw [h1]
  simp [PolyColl.fetch, h2, passed]

theorem passed_of (x : Expr) (v : V) : (passed x v).Of v := by
  unfold passed
  split
  · exact Or.inr (Or.inl rfl)
  · exact Or.inl rfl

theorem passed_copies (x : Expr) (v : V) : (passed x v).copies ↔ x.rvalue = false := by
  unfold passed
  cases x.rvalue <;> simp [Src.copies]

/-- **C70.**  Whatever the reference through which `insert(x)` and `insert(hint,x)` see their
argument, they do what they do for the object designated, which is the complete object for a
reference to a base and the wrapped one for a wrapper: the address and the type agree. -/
theorem C70_object {c : Coll V} {w : World} (h : c.Possible E k w) {m : PModel} {mem : Mem V} {x : Expr} (hx : x.Wf E m) {src : Src V}
    (hs : fetch mem (E.tiTy (x.object m).1) (x.object m).2 x.rvalue = some src) :
    ∃ a : Arg V, Arg.OK E a ∧ a.stat = x.stat ∧ a.acc = x.acc ∧ a.src = src ∧ E.tiTy a.dyn = E.tiTy (x.object m).1 ∧
      insertExpr E m mem x c w = insert E a c w ∧ ∀ hint, insertHintExpr E m mem hint x c w = insertHint E hint a c w :=
  ⟨x.arg m src, hx.ok E src, rfl, rfl, rfl, hx.ty E, insertExpr_eq E hx hs h.map, fun hint => insertHintExpr_eq E hx hs hint h.map⟩

/-- **C70** for `insert(x)`: if the segment of the object's type exists or can be created, the whole
object is appended to it. -/
theorem C70_insert {c : Coll V} {w : World} (h : c.Reachable E k w) {m : PModel} {mem : Mem V} {x : Expr} {t : Ty} {v : V}
    (hx : Denotes E m mem x t v) (ht : t ∈ c.abs.types ∨ x.acc = true ∧ t = E.tiTy x.stat) :
    Runs (insertExpr E m mem x) c w
      (fun it c' w' => c'.Reachable E k w' ∧ c.abs.Put t (c.abs.elemsOf t).length [v] c'.abs ∧
        c'.At E it (some (t, (c.abs.elemsOf t).length)) ∧ c'.map.deref it.segpos = some v)
      (fun e _ _ => ExcFrom E t (x.rvalue = false) (E.TooMany t ((c.abs.elemsOf t).length + 1)) e) := by
  obtain ⟨a, h1, h2, h3, h4, h5, h6, -⟩ := C70_object h.possible hx.1 hx.fetch
  rw [← hx.2.1] at h5
  have := C07_insert h a h1 (v := v) (h4 ▸ passed_of _ _) (by rw [h5, h2, h3]; exact ht)
  unfold Runs at this ⊢
  rw [h6]
  simpa only [h5, h4, passed_copies] using this

/-- **C70** for objects of other types: `unregistered_type`, with the type of the object. -/
theorem C70_insert_unregistered {c : Coll V} {w : World} (h : c.Possible E k w) {m : PModel} {mem : Mem V} {x : Expr} {t : Ty} {v : V}
    (hx : Denotes E m mem x t v) (ht : t ∉ c.abs.types) (hn : ¬ (x.acc = true ∧ t = E.tiTy x.stat)) :
    Runs (insertExpr E m mem x) c w (fun _ _ _ => False)
      (fun e c' _ => c'.map.nodes = c.map.nodes ∧ (e = .unregistered t ∨ e = .badAlloc ∧ ∃ i, E.fault i = true)) := by
  obtain ⟨a, h1, h2, h3, h4, h5, h6, -⟩ := C70_object h hx.1 hx.fetch
  rw [← hx.2.1] at h5
  have := (C07_insert_unregistered h a h1 (by rw [h5]; exact ht) (by rw [h5, h2, h3]; exact hn)).1
  unfold Runs at this ⊢
  rw [h6]
  simpa only [h5] using this

/-- **C70** for `insert(pos,x)` at a `local_base_iterator` of the segment of the object's type. -/
theorem C70_insert_pos_base {c : Coll V} {w : World} (h : c.Reachable E k w) {m : PModel} {mem : Mem V} {x : Expr} {t : Ty} {v : V}
    (hx : Denotes E m mem x t v) {pos : LIter} {n : Nat} (hp : c.LAtB E pos t n) :
    Runs (insertPosBaseExpr E m mem pos x) c w
      (fun l c' w' => c'.Reachable E k w' ∧ c'.abs = c.abs.insertAt t n [v] ∧ c'.LAtB E l t n)
      (fun e _ _ => ExcFrom E t (x.rvalue = false) (E.TooMany t ((c.abs.elemsOf t).length + 1)) e) := by
  have e := insertPosBaseExpr_eq E hx.1 hx.fetch h.map (by rw [← hx.2.1]; exact hp)
  have e' := hx.1.ty E
  rw [← hx.2.1] at e'
  have := C08_insert_pos_base h (x.arg m (passed x v))
    (hx.1.ok E _) (v := v) (by rw [show E.tiTy (Expr.arg m x _).dyn = t from e']; exact hp) (passed_of x v)
  unfold Runs at this ⊢
  rw [e]
  simpa only [Expr.arg, e', passed_copies] using this

/-- **C70** for `insert(pos,x)` at a `local_iterator<U>`, `U` being the object's type. -/
theorem C70_insert_pos_local {c : Coll V} {w : World} (h : c.Reachable E k w) {m : PModel} {mem : Mem V} {x : Expr} {t : Ty} {v : V}
    (hx : Denotes E m mem x t v) {pos : LIter} {n : Nat} {u : TI} (hu : E.tiTy u = t) (hp : c.LAtL E pos t n) :
    Runs (insertPosLocalExpr E m mem pos u x) c w
      (fun l c' w' => c'.Reachable E k w' ∧ c'.abs = c.abs.insertAt t n [v] ∧ c'.LAtL E l t n)
      (fun e _ _ => ExcFrom E t (x.rvalue = false) (E.TooMany t ((c.abs.elemsOf t).length + 1)) e) := by
  have e' := hx.1.ty E
  rw [← hx.2.1] at e'
  have := C08_insert_pos_local h (x.arg m (passed x v))
    (hx.1.ok E _) (v := v) (by rw [show E.tiTy (Expr.arg m x _).dyn = t from e']; exact hp) (passed_of x v)
  rw [insertPosLocalExpr_eq E hx.1 hx.fetch (hu.trans hx.2.1)]
  simpa only [Expr.arg, e', passed_copies] using this

/-- The argument `x` is an lvalue that designates an element of the collection itself: the one at position
`n` of segment `t`, of value `v`, seen through a reference to a base, a wrapper, or as it is. -/
def DenotesOwn (E : Env V) (m : PModel) (c : Coll V) (x : Expr) (t : Ty) (n : Nat) (v : V) : Prop :=
  x.Wf E m ∧ x.rvalue = false ∧ t = E.tiTy (x.object m).1 ∧
    ∃ y ∈ c.map.nodes, y.seg.ty = t ∧ (x.object m).2 = .elem (y.seg.loc n) 0 ∧ y.seg.elems[n]? = some v

theorem DenotesOwn.fetch {m : PModel} {c : Coll V} {x : Expr} {t : Ty} {n : Nat} {v : V} (h : DenotesOwn E m c x t n v) (mem : Mem V) :
    ∃ src, PolyColl.fetch mem (E.tiTy (x.object m).1) (x.object m).2 x.rvalue = some src ∧ Own c t src n v := by
  obtain ⟨-, hr, -, y, hy, ht, ha, hv⟩ := h
  exact ⟨.copyAlias (y.seg.loc n), by rw [ha, hr]; simp [PolyColl.fetch], y, hy, ht, rfl, hv⟩

theorem Own.types {c : Coll V} {t : Ty} {src : Src V} {m : Nat} {v : V} (h : Own c t src m v) : t ∈ c.abs.types := by
  obtain ⟨n, hn, rfl, -, -⟩ := h
  exact mem_types hn

/-- **C70** for elements of the collection itself: through whatever reference `insert` sees the element,
it appends a copy of the whole element to its segment.  (`base_collection` always; the others if the
segment has room, see C13.) -/
theorem C70_insert_own {c : Coll V} {w : World} (h : c.Reachable E k w) {m : PModel} (mem : Mem V) {x : Expr} {t : Ty} {n : Nat} {v : V}
    (hx : DenotesOwn E m c x t n v) (hr : k = .packed ∨ ∃ y ∈ c.map.nodes, y.seg.ty = t ∧ y.seg.size < y.seg.capacity) :
    Runs (insertExpr E m mem x) c w
      (fun _ c' w' => c'.Reachable E k w' ∧ c.abs.Put t (c.abs.elemsOf t).length [v] c'.abs)
      (fun e _ _ => ExcFrom E t True (E.TooMany t ((c.abs.elemsOf t).length + 1)) e) := by
  obtain ⟨src, hs, ho⟩ := hx.fetch mem
  obtain ⟨a, h1, h2, h3, h4, h5, h6, -⟩ := C70_object h.possible hx.1 hs
  rw [← hx.2.2.1] at h5
  have hop : (COp.insert a).Inserts E c t (c.abs.elemsOf t).length src := ⟨h1, h5.symm, rfl, h4.symm⟩
  have hst : (COp.insert a).Storable E c := Or.inl (by rw [h5]; exact ho.types)
  have : Runs ((COp.insert a).run E) c w
      (fun _ c' w' => c'.Reachable E k w' ∧ c.abs.Put t (c.abs.elemsOf t).length [v] c'.abs)
      (fun e _ _ => ExcFrom E t True (E.TooMany t ((c.abs.elemsOf t).length + 1)) e) := by
    rcases hr with rfl | hr
    · exact C13_base_collection h hop hst ho
    · exact C13_partial h hop hst ho hr
  have h7 : Runs (insert E a >>= fun _ => (pure () : Prog (Coll V) Unit)) c w _ _ := this
  rw [runs_bind] at h7
  unfold Runs at h7 ⊢
  rw [h6]
  exact h7

/-- The arguments that a range of references amounts to. -/
def passedAll (m : PModel) (xs : List Expr) (vs : List (Ty × V)) : List (Arg V) :=
  List.zipWith (fun x v => x.arg m (passed x v.2)) xs vs

theorem passedAll_spec {m : PModel} {mem : Mem V} {xs : List Expr} {vs : List (Ty × V)}
    (hx : All2 (fun x v => Denotes E m mem x v.1 v.2) xs vs) :
    ArgsOf (passedAll m xs vs) (vs.map (·.2)) ∧ tagged E (passedAll m xs vs) (vs.map (·.2)) = vs ∧
      (passedAll m xs vs).length = xs.length ∧ (∀ a ∈ passedAll m xs vs, ∃ x ∈ xs, x.Wf E m ∧ ∃ v, a = x.arg m (passed x v)) ∧
      All2 (Stands E m mem) xs (passedAll m xs vs) := by
  induction hx with
  | nil => exact ⟨.nil, rfl, rfl, by simp [passedAll], .nil⟩
  | @cons x v xs vs hx _ ih =>
    obtain ⟨i1, i2, i3, i4, i5⟩ := ih
    refine ⟨.cons (passed_of x v.2) i1, ?_, congrArg (· + 1) i3, ?_, .cons ⟨hx.1, _, hx.fetch, rfl⟩ i5⟩
    · show (E.tiTy (x.subtypeid m), v.2) :: tagged E (passedAll m xs vs) (vs.map (·.2)) = v :: vs
      rw [i2, hx.1.ty, ← hx.2.1]
    · intro a ha
      rcases List.mem_cons.1 ha with rfl | ha
      · exact ⟨x, List.mem_cons_self, hx.1, v.2, rfl⟩
      · obtain ⟨y, hy, h2⟩ := i4 a ha
        exact ⟨y, List.mem_cons_of_mem _ hy, h2⟩

theorem insertRangeExpr_eq {m : PModel} {mem : Mem V} {xs : List Expr} {vs : List (Ty × V)}
    (hx : All2 (fun x v => Denotes E m mem x v.1 v.2) xs vs) :
    ∀ {c : Coll V} {w : World}, c.Inv E w → insertRangeExpr E m mem xs c w = insertRange E (passedAll m xs vs) c w := by
  induction hx with
  | nil => intro c w _; rfl
  | @cons x v xs vs hx _ ih =>
    intro c w hc
    have e := insertExpr_eq E hx.1 hx.fetch hc.map
    show Prog.bind (insertExpr E m mem x) (fun _ => insertRangeExpr E m mem xs) c w =
      Prog.bind (insert E (x.arg m (passed x v.2))) (fun _ => insertRange E (passedAll m xs vs)) c w
    have := insert_runs E (x.arg m (passed x v.2)) v.2 (hx.1.ok E _) c w hc (srcFor (passed_of x v.2))
    unfold Runs at this
    simp only [Prog.bind, e]
    split
    · next h => rw [h] at this; exact ih (this.1.inv E hc)
    · rfl
    · rfl

/-- **C70** for `insert(first,last)`: the objects designated are appended to their segments, in the
order of the range. -/
theorem C70_insert_range {c : Coll V} {w : World} (h : c.Reachable E k w) {m : PModel} {mem : Mem V} {xs : List Expr} {vs : List (Ty × V)}
    (hx : All2 (fun x v => Denotes E m mem x v.1 v.2) xs vs)
    (ht : ∀ x ∈ xs, E.tiTy (x.object m).1 ∈ c.abs.types ∨ x.acc = true ∧ E.tiTy (x.object m).1 = E.tiTy x.stat) :
    Runs (insertRangeExpr E m mem xs) c w
      (fun _ c' w' => c'.Reachable E k w' ∧ c.abs.Appended vs c'.abs)
      (fun e _ _ => ∃ x ∈ xs, ExcFrom E (E.tiTy (x.object m).1) (x.rvalue = false)
        (E.TooMany (E.tiTy (x.object m).1) ((c.abs.elemsOf (E.tiTy (x.object m).1)).length + xs.length)) e) := by
  have e := insertRangeExpr_eq hx h.inv
  obtain ⟨h1, h2, h3, h4, -⟩ := passedAll_spec hx
  have := C09_insert_range h _ _ h1 (fun a ha => by
    obtain ⟨x, hx, hw, v, rfl⟩ := h4 a ha
    refine ⟨hw.ok E _, ?_⟩
    simp only [Expr.arg, hw.ty]
    exact ht x hx)
  rw [h2, h3] at this
  unfold Runs at this ⊢
  rw [e]
  split
  · next h => rw [h] at this; exact this
  · next h =>
    rw [h] at this
    obtain ⟨a, ha, h'⟩ := this
    obtain ⟨x, hx, hw, v, rfl⟩ := h4 a ha
    refine ⟨x, hx, ?_⟩
    simpa only [Expr.arg, hw.ty, passed_copies] using h'
  · next h => rw [h] at this; exact this

/-- **C70** for `insert(pos,first,last)` at a `local_base_iterator`: if all the objects designated are of the
type of the segment, they are inserted there, in order. -/
theorem C70_insert_pos_range_base {c : Coll V} {w : World} (h : c.Reachable E k w) {m : PModel} {mem : Mem V} {xs : List Expr} {vs : List V} {t : Ty}
    (hx : All2 (fun x v => Denotes E m mem x t v) xs vs) {pos : LIter} {n : Nat} (hp : c.LAtB E pos t n) :
    Runs (insertPosRangeBaseExpr E m mem pos xs) c w
      (fun l c' w' => c'.Reachable E k w' ∧ c'.abs = c.abs.insertAt t n vs ∧ c'.LAtB E l t n)
      (fun e _ _ => ExcFrom E t (∃ x ∈ xs, x.rvalue = false) (E.TooMany t ((c.abs.elemsOf t).length + vs.length)) e) := by
  have hx' : All2 (fun x v => Denotes E m mem x v.1 v.2) xs (vs.map fun v => (t, v)) := by
    clear hp
    induction hx with
    | nil => exact .nil
    | cons hx _ ih => exact .cons hx ih
  have ht : ∀ a ∈ passedAll m xs (vs.map fun v => (t, v)), E.tiTy a.dyn = t := by
    clear hx' hp
    induction hx with
    | nil => simp [passedAll]
    | @cons x v xs vs hx _ ih =>
      intro a ha
      rcases List.mem_cons.1 ha with rfl | ha
      · exact (hx.1.ty E).trans hx.2.1.symm
      · exact ih a ha
  obtain ⟨h1, -, h3, h4, h5⟩ := passedAll_spec hx'
  have e := insertPosRangeBaseExpr_eq E h5 ht ⟨h.kind, by rw [← h.kind]; exact h.map⟩ hp (k := k)
  rw [List.map_map, show (vs.map ((·.2) ∘ fun v => (t, v))) = vs from List.map_id vs] at h1
  have := C12_insert_pos_range_base h hp _ _ h1 fun a ha => by
    obtain ⟨x, -, hw, v, rfl⟩ := h4 a ha
    exact ⟨hw.ok E _, ht _ ha⟩
  unfold Runs at this ⊢
  rw [e]
  split
  · next h => rw [h] at this; exact this
  · next h =>
    rw [h] at this
    refine ExcFrom.mono this ?_ id
    rintro ⟨a, ha, hc⟩
    obtain ⟨x, hx, -, v, rfl⟩ := h4 a ha
    exact ⟨x, hx, (passed_copies x v).1 hc⟩
  · next h => rw [h] at this; exact this

/-- What an element of a range that `insert(local_iterator<U>,first,last)` takes is to be inserted as: if it
designates an object of type `U`, that object; else, be it of a type that implements the interface or not, the `U`
constructed from it. -/
inductive InsertsAs (E : Env V) (m : PModel) (mem : Mem V) (u : TI) : LocalArg V → V → Prop
  | whole {x : Expr} {cons : Option V} {v : V} (h : Denotes E m mem x (E.tiTy u) v) : InsertsAs E m mem u (.impl x cons) v
  | made {x : Expr} {v : V} (h : x.Wf E m) (ht : E.tiTy (x.object m).1 ≠ E.tiTy u) : InsertsAs E m mem u (.impl x (some v)) v
  | other {v : V} : InsertsAs E m mem u (.other v) v

/-- **C70** for `insert(pos,first,last)` at a `local_iterator<U>`: objects of type `U` are inserted whole through whatever reference they
are seen, also if `U` can be constructed from the reference itself; from everything else a `U` is constructed. -/
theorem C70_insert_pos_range_local {c : Coll V} {w : World} (h : c.Reachable E k w) {m : PModel} {mem : Mem V} {u : TI} {xs : List (LocalArg V)} {vs : List V}
    (hx : All2 (InsertsAs E m mem u) xs vs) {pos : LIter} {n : Nat} (hp : c.LAtL E pos (E.tiTy u) n) :
    Runs (insertPosRangeLocalExpr E m mem pos u xs) c w
      (fun l c' w' => c'.Reachable E k w' ∧ c'.abs = c.abs.insertAt (E.tiTy u) n vs ∧ c'.LAtL E l (E.tiTy u) n)
      (fun e _ _ => ExcFrom E (E.tiTy u) (∃ x cons, LocalArg.impl x cons ∈ xs ∧ x.rvalue = false ∧ E.tiTy (x.object m).1 = E.tiTy u)
        (E.TooMany (E.tiTy u) ((c.abs.elemsOf (E.tiTy u)).length + vs.length)) e) := by
  have key : ∃ srcs, All2 (StandsLocal E m mem u) xs srcs ∧ SrcsOf srcs vs ∧
      ((∃ src ∈ srcs, src.copies) → ∃ x cons, LocalArg.impl x cons ∈ xs ∧ x.rvalue = false ∧ E.tiTy (x.object m).1 = E.tiTy u) := by
    clear hp
    induction hx with
    | nil => exact ⟨[], .nil, .nil, by simp⟩
    | @cons x v xs vs hx _ ih =>
      obtain ⟨srcs, i1, i2, i3⟩ := ih
      have lift : (∃ src ∈ srcs, src.copies) → ∃ y cons, LocalArg.impl y cons ∈ x :: xs ∧ y.rvalue = false ∧ E.tiTy (y.object m).1 = E.tiTy u :=
        fun h => by obtain ⟨y, cons, h1, h2⟩ := i3 h; exact ⟨y, cons, List.mem_cons_of_mem _ h1, h2⟩
      cases hx with
      | @whole x cons _ hx =>
        refine ⟨passed x v :: srcs, .cons ⟨hx.1, .inl ⟨hx.2.1.symm, ?_⟩⟩ i1, .cons (passed_of x v) i2, ?_⟩
        · have := hx.fetch; rwa [← hx.2.1] at this
        · rintro ⟨src, hs, hc⟩
          rcases List.mem_cons.1 hs with rfl | hs
          · exact ⟨x, cons, List.mem_cons_self, (passed_copies x v).1 hc, hx.2.1.symm⟩
          · exact lift ⟨src, hs, hc⟩
      | made hw ht =>
        refine ⟨.emplaced v :: srcs, .cons ⟨hw, .inr ⟨ht, v, rfl, rfl⟩⟩ i1, .cons (.inr (.inr rfl)) i2, ?_⟩
        rintro ⟨src, hs, hc⟩
        rcases List.mem_cons.1 hs with rfl | hs
        · exact absurd hc (by simp [Src.copies])
        · exact lift ⟨src, hs, hc⟩
      | other =>
        refine ⟨.emplaced v :: srcs, .cons rfl i1, .cons (.inr (.inr rfl)) i2, ?_⟩
        rintro ⟨src, hs, hc⟩
        rcases List.mem_cons.1 hs with rfl | hs
        · exact absurd hc (by simp [Src.copies])
        · exact lift ⟨src, hs, hc⟩
  obtain ⟨srcs, h1, h2, h3⟩ := key
  rw [insertPosRangeLocalExpr_eq E h1]
  exact (C12_insert_pos_range_local h u hp srcs vs h2).mono (fun _ _ _ h => h) (fun _ _ _ h => ExcFrom.mono h h3 id)

/-- A memory with an object of type 2 at 100 and its base part, of type 0, at 104; an object of type 3
at 200; and a wrapper, of type 4, at 300. -/
def sampleMem : Mem Nat := fun a t =>
  if a = 100 ∧ t = 2 then some 7 else if a = 104 ∧ t = 0 then some 1 else if a = 200 ∧ t = 3 then some 8
  else if a = 300 ∧ t = 4 then some 5 else none

/-- A reference to a base (of type 0) of the object of type 2. -/
def baseRef : Expr := ⟨0, false, false, true, .ext 104, 4, .ext 100, false⟩
/-- The wrapper, moved from, that wraps the object of type 2. -/
def wrapRef : Expr := ⟨8, false, true, true, .ext 300, 5, .ext 100, true⟩
/-- A reference to the object of type 3, of a final type. -/
def finalRef : Expr := ⟨6, true, false, true, .ext 200, 7, .ext 200, false⟩

theorem baseRef_denotes : Denotes Sample.E0 .base sampleMem baseRef 2 7 :=
  ⟨⟨fun _ h => by simp [baseRef] at h, fun _ h => absurd h (by decide)⟩, rfl, 100, rfl, rfl⟩

theorem wrapRef_denotes (m : PModel) (hm : m ≠ .base) : Denotes Sample.E0 m sampleMem wrapRef 2 7 := by
  refine ⟨⟨fun h => absurd h hm, fun _ h => absurd h (by decide)⟩, ?_, 100, ?_⟩ <;> cases m <;>
    first | exact absurd rfl hm | exact ⟨rfl, rfl⟩ | rfl

theorem finalRef_denotes (m : PModel) : Denotes Sample.E0 m sampleMem finalRef 3 8 := by
  refine ⟨⟨fun _ _ => by decide, fun _ _ => rfl⟩, ?_, 200, ?_⟩ <;> cases m <;> first | exact ⟨rfl, rfl⟩ | rfl

/-- The references designate the object of type 2 and value 7, not its base part of value 1 nor the
wrapper of value 5; `insert` can store them all. -/
example (k : Kind) : (Sample.c0 k).Reachable Sample.E0 k (Sample.w0 k) ∧ Denotes Sample.E0 .base sampleMem baseRef 2 7 ∧
    Denotes Sample.E0 .function sampleMem wrapRef 2 7 ∧ Denotes Sample.E0 .any sampleMem wrapRef 2 7 ∧ 2 ∈ (Sample.c0 k).abs.types ∧
    Denotes Sample.E0 .base sampleMem finalRef 3 8 ∧ 3 ∉ (Sample.c0 k).abs.types ∧ finalRef.acc = true ∧ 3 = Sample.E0.tiTy finalRef.stat ∧
    All2 (fun x v => Denotes Sample.E0 .base sampleMem x v.1 v.2) [baseRef, finalRef, baseRef] [(2, 7), (3, 8), (2, 7)] ∧
    ∃ pos, (Sample.c0 k).LAtB Sample.E0 pos 2 0 := by
  obtain ⟨p, hp⟩ := exists_latB (Sample.reach0 k).inv (t := 2) (n := 0) (by rw [Sample.abs0]; decide) (Nat.zero_le _)
  refine ⟨Sample.reach0 k, baseRef_denotes, wrapRef_denotes _ nofun, wrapRef_denotes _ nofun, ?_, finalRef_denotes _, ?_, rfl, by decide,
    .cons baseRef_denotes (.cons (finalRef_denotes _) (.cons baseRef_denotes .nil)), p, hp⟩ <;> rw [Sample.abs0] <;> decide

/-- A range for a position in the segment of type 2: references to a base of an object of type 2, once such that a `U` can be
constructed from the reference itself (with value 99, say); a reference to an object of type 3, and something that does not
implement the interface. -/
example (k : Kind) : (Sample.c0 k).Reachable Sample.E0 k (Sample.w0 k) ∧
    All2 (fun x v => Denotes Sample.E0 .base sampleMem x 2 v) [baseRef, baseRef] [7, 7] ∧ (∃ pos, (Sample.c0 k).LAtB Sample.E0 pos 2 1) ∧
    Sample.E0.tiTy 4 = 2 ∧ All2 (InsertsAs Sample.E0 .base sampleMem 4)
      [.impl baseRef none, .impl finalRef (some 40), .impl baseRef (some 99), .other 41] [7, 40, 7, 41] ∧
    ∃ pos, (Sample.c0 k).LAtL Sample.E0 pos 2 0 := by
  obtain ⟨p, hp⟩ := exists_latB (Sample.reach0 k).inv (t := 2) (n := 1) (by rw [Sample.abs0]; decide) (by rw [Sample.abs0]; decide)
  obtain ⟨q, hq⟩ := exists_latL (Sample.reach0 k).inv (t := 2) (n := 0) (by rw [Sample.abs0]; decide) (Nat.zero_le _)
  exact ⟨Sample.reach0 k, .cons baseRef_denotes (.cons baseRef_denotes .nil), ⟨p, hp⟩, rfl,
    .cons (.whole baseRef_denotes) (.cons (.made (finalRef_denotes _).1 (by decide)) (.cons (.whole baseRef_denotes) (.cons .other .nil))), q, hq⟩

/-- A reference to a base, of type 0, of the element at `p` of type 2. -/
def ownRef (p : Ptr) : Expr := ⟨0, false, false, true, .elem p 4, 4, .elem p 0, false⟩

/-- `c.insert(*it)` for the element of value 7, of the segment of type 2, seen as an object of
its base class. -/
example : ∃ n ∈ (Sample.c0 .packed).map.nodes,
    DenotesOwn Sample.E0 .base (Sample.c0 .packed) (ownRef (n.seg.loc 0)) 2 0 7 ∧ (Sample.c0 .packed).Reachable Sample.E0 .packed (Sample.w0 .packed) ∧
    (match insertExpr Sample.E0 .base sampleMem (ownRef (n.seg.loc 0)) (Sample.c0 .packed) (Sample.w0 .packed) with
      | .ok _ c' _ => some c'.abs | _ => none) = some [(1, [9]), (0, [1, 2, 3]), (5, []), (2, [7, 7])] :=
  ⟨_, .tail _ (.tail _ (.tail _ (.head _))), ⟨⟨fun _ h => by simp [ownRef] at h, fun _ h => absurd h (by decide)⟩, rfl, rfl, _, .tail _ (.tail _ (.tail _ (.head _))), rfl, rfl, rfl⟩,
    Sample.reach0 _, rfl⟩

/-- Why `Expr.Wf` asks that references to a final class refer to complete objects: there is no element
at the address of a part of an element, and the behaviour is undefined. -/
theorem C70_part_of_element : ∃ n ∈ (Sample.c0 .packed).map.nodes, n.seg.ty = 2 ∧
    insertExpr Sample.E0 .base sampleMem { ownRef (n.seg.loc 0) with stat := 4, final := true } (Sample.c0 .packed) (Sample.w0 .packed) = .ub :=
  ⟨_, .tail _ (.tail _ (.tail _ (.head _))), rfl, rfl⟩

/-- Why `Expr.Wf` excludes wrappers of objects of their own type, say an `any` (at 300, value 5) made
with a `static_binding` from an `any` of the same type (at 400, value 6): the types of the two agree,
so `insert` takes the wrapper and not, as documented, the object wrapped. -/
theorem C70_own_wrapper :
    let mem : Mem Nat := fun a t => if a = 300 ∧ t = 2 then some 5 else if a = 400 ∧ t = 2 then some 6 else none
    let x : Expr := ⟨4, false, true, true, .ext 300, 5, .ext 400, false⟩
    (x.object .any).2 = .ext 400 ∧ Sample.E0.tiTy (x.object .any).1 = 2 ∧ mem 400 2 = some 6 ∧
    (match insertExpr Sample.E0 .any mem x (Coll.empty' .split 0) ⟨1, 0⟩ with | .ok _ c' _ => some c'.abs | _ => none) = some [(2, [5])] :=
  ⟨rfl, rfl, rfl, rfl⟩

end PolyColl.Props
