import Verif.Props.SampleRange
import Verif.Model.Reading
import Verif.Lemmas.Survive
import Verif.Props.Traversal
import Verif.Props.Whole
/-!
# Properties C61 and C62: reading a collection, and random access within a segment
-/

namespace PolyColl.Props
open PolyColl Prog Coll

variable {V : Type} {E : Env V} {k : Kind}

/-! ### C61 -/

/-- What a thread that calls a reading operation gets. -/
inductive Answer (α : Type) where
  | value (a : α)
  | thrown (e : Exc)
  | undefined

/-- Whatever the outcome, the operation changes nothing, not even how types are looked up, and uses no memory. -/
def ChangesNothing {α : Type} (p : Prog (Coll V) α) : Prop :=
  ∀ c w, (∀ a c' w', p c w = .ok a c' w' → c' = c ∧ w'.next = w.next) ∧ ∀ e c' w', p c w = .exc e c' w' → c' = c ∧ w'.next = w.next

/-- The outcome of an operation that changes nothing and fails, if at all, without help from outside. -/
def Answer.out {α : Type} (c : Coll V) (w : World) : Answer α → Out (Coll V) α
  | .value a => .ok a c w
  | .thrown e => .exc e c w
  | .undefined => .ub

/-- The outcome of the operation on `c` depends on nothing else. -/
def SteadyAt {α : Type} (c : Coll V) (p : Prog (Coll V) α) : Prop := ∃ r : Answer α, ∀ w, p c w = r.out c w

theorem steady_get {α : Type} {c : Coll V} {f : Coll V → Prog (Coll V) α} (h : SteadyAt c (f c)) : SteadyAt c (Prog.get >>= f) := h

theorem steady_pure {α : Type} {c : Coll V} (a : α) : SteadyAt c (pure a : Prog (Coll V) α) := ⟨.value a, fun _ => rfl⟩

theorem steady_ofOption {α : Type} {c : Coll V} (o : Option α) : SteadyAt c (Prog.ofOption o : Prog (Coll V) α) := by
  cases o with
  | some a => exact steady_pure a
  | none => exact ⟨.undefined, fun _ => rfl⟩

theorem steady_raise {α : Type} {c : Coll V} (e : Exc) : SteadyAt c (Prog.raise e : Prog (Coll V) α) := ⟨.thrown e, fun _ => rfl⟩

theorem steady_bind {α β : Type} {c : Coll V} {p : Prog (Coll V) α} {f : α → Prog (Coll V) β} (hp : SteadyAt c p)
    (hf : ∀ a, SteadyAt c (f a)) : SteadyAt c (p >>= f) := by
  obtain ⟨r, hr⟩ := hp
  show ∃ r, ∀ w, Prog.bind p f c w = _
  unfold Prog.bind
  cases r with
  | value a =>
    obtain ⟨r, hr'⟩ := hf a
    exact ⟨r, fun w => by rw [hr]; exact hr' w⟩
  | thrown e => exact ⟨.thrown e, fun w => by rw [hr]; rfl⟩
  | undefined => exact ⟨.undefined, fun w => by rw [hr]; rfl⟩

theorem steady_ite {α : Type} {c : Coll V} {b : Prop} [Decidable b] {p q : Prog (Coll V) α} (hp : SteadyAt c p) (hq : SteadyAt c q) :
    SteadyAt c (if b then p else q) := by split <;> assumption

theorem steady_forInfo {c : Coll V} (t : TI) : SteadyAt c (forInfo E t) := steady_get (steady_ite (steady_raise _) (steady_pure _))

theorem steady_query {α : Type} {c : Coll V} (f : Seg V → α) (t : TI) : SteadyAt c (query E f t) :=
  steady_bind (steady_forInfo t) fun _ => steady_get (steady_bind (steady_ofOption _) fun _ => steady_pure _)

/-- `operator==` of the type does not throw, or is not used. -/
def Env.EqSafe (E : Env V) (t : Ty) : Prop := (E.traits t).eqComparable = true → (E.traits t).nothrowEq = true

theorem steady_eqVH {c : Coll V} {t : Ty} (h : Env.EqSafe E t) (x y : V) : SteadyAt c (E.eqVH t x y : Prog (Coll V) Bool) := by
  unfold Env.eqVH
  by_cases hc : (E.traits t).eqComparable = true
  · rw [if_pos hc]
    refine ⟨.value (E.eqv x y), fun w => ?_⟩
    simp only [bind, Prog.bind, Env.userOp, h hc, if_true]
    rfl
  · rw [if_neg hc]
    exact steady_raise _

theorem steady_eqElems {c : Coll V} {t : Ty} (h : Env.EqSafe E t) : ∀ l l' : List V, SteadyAt c (E.eqElems t l l' : Prog (Coll V) Bool)
  | x :: l, y :: l' => by
    unfold Env.eqElems
    exact steady_bind (steady_eqVH h x y) fun _ => steady_ite (steady_eqElems h l l') (steady_pure _)
  | [], _ => by unfold Env.eqElems; exact steady_pure _
  | _ :: _, [] => by unfold Env.eqElems; exact steady_pure _

theorem steady_eqVec {c : Coll V} {t : Ty} (h : Env.EqSafe E t) (s s' : Vec V) : SteadyAt c (E.eqVec t s s' : Prog (Coll V) Bool) :=
  steady_ite (steady_eqElems h _ _) (steady_pure _)

theorem steady_segEqual {c : Coll V} {s : Seg V} (h : Env.EqSafe E s.ty) (s' : Seg V) : SteadyAt c (Seg.equal E s s' : Prog (Coll V) Bool) := by
  obtain ⟨b, q⟩ := s
  unfold Seg.equal
  cases b <;> cases s'.be
  · exact steady_ite (steady_eqVec h _ _) (steady_pure _)
  · exact steady_pure _
  · exact steady_pure _
  · exact steady_ite (steady_eqVec h _ _) (steady_pure _)

theorem steady_eqLoop {c : Coll V} (m : TMap V) : ∀ (l : List (Node V)) (s : Nat), (∀ n ∈ l, Env.EqSafe E n.seg.ty) →
    SteadyAt c (eqLoop E m l s : Prog (Coll V) (Option Nat))
  | [], s, _ => steady_pure _
  | p :: ps, s, h => by
    unfold eqLoop
    have hr := fun s' => steady_eqLoop (c := c) m ps s' fun n hn => h n (.tail _ hn)
    refine steady_ite (steady_ite (steady_pure _) (hr _)) ?_
    refine steady_bind (steady_ofOption _) fun n => steady_bind (steady_segEqual (h p (.head _)) _) fun b => ?_
    exact steady_ite (hr _) (steady_pure _)

theorem steady_equal {c d : Coll V} (h : ∀ t ∈ c.abs.types, Env.EqSafe E t) : SteadyAt c (Coll.equal E c d : Prog (Coll V) Bool) := by
  refine steady_bind (steady_eqLoop _ _ _ fun n hn => h _ (mem_types hn)) fun r => ?_
  cases r <;> exact steady_pure _

/-- Comparisons of collections with elements whose `operator==` throws depend on what that does. -/
def Steady (E : Env V) (c : Coll V) {α : Type} : ReadOp V α → Prop
  | .equal _ | .notEqual _ => ∀ t ∈ c.abs.types, Env.EqSafe E t
  | _ => True

/-- **C61.**  The answer to an operation on a `const` collection depends only on the collection: nothing else is looked at, not even
the fault schedule.  (For comparisons: if `operator==` of elements does not throw.) -/
theorem C61_steady {α : Type} {c : Coll V} (r : ReadOp V α) (hr : Steady E c r) : SteadyAt c (r.run E) := by
  cases r
  case isRegistered => exact steady_get (steady_pure _)
  case empty => exact steady_get (steady_pure _)
  case size => exact steady_get (steady_pure _)
  case emptyOf => exact steady_query _ _
  case sizeOf => exact steady_query _ _
  case maxSizeOf => exact steady_query _ _
  case capacityOf => exact steady_query _ _
  case allocator => exact steady_get (steady_pure _)
  case «end» => exact steady_get (steady_pure _)
  case beginOf => exact steady_bind (steady_forInfo _) fun _ => steady_get (steady_bind (steady_ofOption _) fun _ => steady_pure _)
  case endOf => exact steady_bind (steady_forInfo _) fun _ => steady_get (steady_bind (steady_ofOption _) fun _ => steady_pure _)
  case equal => exact steady_get (steady_equal hr)
  case notEqual => exact steady_get (steady_bind (steady_equal hr) fun _ => steady_pure _)
  all_goals exact steady_get (steady_ofOption _)

theorem SteadyAt.same {α : Type} {c : Coll V} {p : Prog (Coll V) α} (h : SteadyAt c p) (w : World) :
    (∀ a c' w', p c w = .ok a c' w' → c' = c ∧ w' = w) ∧ ∀ e c' w', p c w = .exc e c' w' → c' = c ∧ w' = w := by
  obtain ⟨r, hr⟩ := h
  rw [hr]
  cases r with
  | value a => exact ⟨fun b c' w' h => (by cases h; exact ⟨rfl, rfl⟩), fun e c' w' h => (by cases h)⟩
  | thrown e => exact ⟨fun b c' w' h => (by cases h), fun e c' w' h => (by cases h; exact ⟨rfl, rfl⟩)⟩
  | undefined => exact ⟨fun b c' w' h => (by cases h), fun e c' w' h => (by cases h)⟩

theorem changesNothing_of {α : Type} {p : Prog (Coll V) α} (h : ∀ c, SteadyAt c p) : ChangesNothing p := fun c w =>
  ⟨fun a c' w' e => (by obtain ⟨rfl, rfl⟩ := ((h c).same w).1 _ _ _ e; exact ⟨rfl, rfl⟩),
    fun e c' w' e => (by obtain ⟨rfl, rfl⟩ := ((h c).same w).2 _ _ _ e; exact ⟨rfl, rfl⟩)⟩

theorem changesNothing_bind {α β : Type} {p : Prog (Coll V) α} {f : α → Prog (Coll V) β} (hp : ChangesNothing p)
    (hf : ∀ a, ChangesNothing (f a)) : ChangesNothing (p >>= f) := by
  intro c w
  show (∀ a c' w', Prog.bind p f c w = _ → _) ∧ ∀ e c' w', Prog.bind p f c w = _ → _
  unfold Prog.bind
  cases h : p c w with
  | ub => exact ⟨fun _ _ _ h => (by cases h), fun _ _ _ h => (by cases h)⟩
  | exc e c' w' =>
    obtain ⟨rfl, h2⟩ := (hp c w).2 _ _ _ h
    exact ⟨fun _ _ _ h => (by cases h), fun _ _ _ h => (by cases h; exact ⟨rfl, h2⟩)⟩
  | ok a c' w' =>
    obtain ⟨rfl, h2⟩ := (hp c w).1 _ _ _ h
    exact ⟨fun _ _ _ h => ((hf a c' w').1 _ _ _ h).imp_right fun h => h.trans h2, fun _ _ _ h => ((hf a c' w').2 _ _ _ h).imp_right fun h => h.trans h2⟩

theorem changesNothing_ite {α : Type} {b : Prop} [Decidable b] {p q : Prog (Coll V) α} (hp : ChangesNothing p) (hq : ChangesNothing q) :
    ChangesNothing (if b then p else q) := by split <;> assumption

theorem changesNothing_pure {α : Type} (a : α) : ChangesNothing (pure a : Prog (Coll V) α) := changesNothing_of fun _ => steady_pure a

theorem changesNothing_userOp (b : Bool) : ChangesNothing (E.userOp b : Prog (Coll V) Unit) := by
  intro c w
  unfold Env.userOp
  refine ⟨fun _ c' w' h => ?_, fun _ c' w' h => ?_⟩
  all_goals
    split at h
    · cases h <;> exact ⟨rfl, rfl⟩
    · split at h <;> cases h <;> exact ⟨rfl, rfl⟩

theorem changesNothing_eqVH (t : Ty) (x y : V) : ChangesNothing (E.eqVH t x y : Prog (Coll V) Bool) :=
  changesNothing_ite (changesNothing_bind (changesNothing_userOp _) fun _ => changesNothing_pure _) (changesNothing_of fun _ => steady_raise _)

theorem changesNothing_eqElems (t : Ty) : ∀ l l' : List V, ChangesNothing (E.eqElems t l l' : Prog (Coll V) Bool)
  | x :: l, y :: l' => by
    unfold Env.eqElems
    exact changesNothing_bind (changesNothing_eqVH t x y) fun _ => changesNothing_ite (changesNothing_eqElems t l l') (changesNothing_pure _)
  | [], _ => by unfold Env.eqElems; exact changesNothing_pure _
  | _ :: _, [] => by unfold Env.eqElems; exact changesNothing_pure _

theorem changesNothing_eqVec (t : Ty) (s s' : Vec V) : ChangesNothing (E.eqVec t s s' : Prog (Coll V) Bool) :=
  changesNothing_ite (changesNothing_eqElems _ _ _) (changesNothing_pure _)

theorem changesNothing_segEqual (s s' : Seg V) : ChangesNothing (Seg.equal E s s' : Prog (Coll V) Bool) := by
  unfold Seg.equal
  split
  · exact changesNothing_ite (changesNothing_eqVec _ _ _) (changesNothing_pure _)
  · exact changesNothing_ite (changesNothing_eqVec _ _ _) (changesNothing_pure _)
  · exact changesNothing_pure _

theorem changesNothing_eqLoop (m : TMap V) : ∀ (l : List (Node V)) (s : Nat), ChangesNothing (eqLoop E m l s : Prog (Coll V) (Option Nat))
  | [], s => changesNothing_pure _
  | p :: ps, s => by
    unfold eqLoop
    refine changesNothing_ite (changesNothing_ite (changesNothing_pure _) (changesNothing_eqLoop m ps _)) ?_
    refine changesNothing_bind (changesNothing_of fun _ => steady_ofOption _) fun n => changesNothing_bind (changesNothing_segEqual _ _) fun b => ?_
    exact changesNothing_ite (changesNothing_eqLoop m ps _) (changesNothing_pure _)

theorem changesNothing_equal (c d : Coll V) : ChangesNothing (Coll.equal E c d : Prog (Coll V) Bool) := by
  refine changesNothing_bind (changesNothing_eqLoop _ _ _) fun r => ?_
  cases r <;> exact changesNothing_pure _

/-- **C61.**  Operations on a `const` collection (and the non-const overloads of `begin`, `end`, `segment`) write
nothing, whether they return or throw. -/
theorem C61_reads {α : Type} (r : ReadOp V α) : ChangesNothing (r.run E) := by
  cases r
  case equal d => exact fun c => changesNothing_equal c d c
  case notEqual d => exact fun c => changesNothing_bind (changesNothing_equal c d) (fun _ => changesNothing_pure _) c
  all_goals exact changesNothing_of fun c => C61_steady _ trivial

/-- An operation called by some thread, or its answer. -/
structure Call (F : Type → Type) where
  thread : Nat
  {α : Type}
  op : F α

/-- The answer to an operation on collection `c`. -/
def answer (E : Env V) (c : Coll V) (w : World) (x : Call (ReadOp V)) : Call Answer :=
  ⟨x.thread, match x.op.run E c w with
    | .ok a _ _ => .value a
    | .exc e _ _ => .thrown e
    | .ub => .undefined⟩

/-- The state of the collection after an operation. -/
def after (E : Env V) (c : Coll V) (w : World) (x : Call (ReadOp V)) : Coll V × World :=
  match x.op.run E c w with
  | .ok _ c' w' => (c', w')
  | .exc _ c' w' => (c', w')
  | .ub => (c, w)

/-- Several threads use one collection; `l` is what they call, in the order in which it happens.  (Since the
operations write nothing, it does not matter that they happen one after the other.) -/
def serve (E : Env V) : List (Call (ReadOp V)) → Coll V → World → List (Call Answer) × Coll V × World
  | [], c, w => ([], c, w)
  | x :: l, c, w =>
    let r := serve E l (after E c w x).1 (after E c w x).2
    (answer E c w x :: r.1, r.2)

/-- **C61**, threads.  In whatever order the calls of several threads happen, each gets the answer it would
get if it had the collection for itself, and the collection is as before.  The time counts for comparisons only: `operator==`
of an element may throw at one time and not at another. -/
theorem C61_threads (l : List (Call (ReadOp V))) (c : Coll V) (w : World) :
    ∃ ws : List World, ws.length = l.length ∧ (serve E l c w).1 = List.zipWith (fun x w' => answer E c w' x) l ws ∧
      (serve E l c w).2.1 = c ∧ (serve E l c w).2.2.next = w.next := by
  induction l generalizing w with
  | nil => exact ⟨[], rfl, rfl, rfl, rfl⟩
  | cons x l ih =>
    have : (after E c w x).1 = c ∧ (after E c w x).2.next = w.next := by
      have h := C61_reads (E := E) x.op c w
      unfold after
      cases hx : x.op.run E c w with
      | ub => exact ⟨rfl, rfl⟩
      | ok a c' w' => exact h.1 _ _ _ hx
      | exc e c' w' => exact h.2 _ _ _ hx
    obtain ⟨ws, h1, h2, h3, h4⟩ := ih (after E c w x).2
    refine ⟨w :: ws, by simp [h1], ?_⟩
    simp only [serve, this.1, List.zipWith_cons_cons]
    exact ⟨by rw [h2], h3, h4.trans this.2⟩

/-- **C61**, threads, exactly: if comparisons do not throw, the answers do not depend on the time either. -/
theorem C61_threads_steady (l : List (Call (ReadOp V))) {c : Coll V} (h : ∀ x ∈ l, Steady E c x.op) (w : World) :
    serve E l c w = (l.map (answer E c w), c, w) := by
  induction l with
  | nil => rfl
  | cons x l ih =>
    have : after E c w x = (c, w) := by
      have h := (C61_steady (E := E) x.op (h x (.head _))).same w
      unfold after
      cases hx : x.op.run E c w with
      | ub => rfl
      | ok a c' w' => obtain ⟨rfl, rfl⟩ := h.1 _ _ _ hx; rfl
      | exc e c' w' => obtain ⟨rfl, rfl⟩ := h.2 _ _ _ hx; rfl
    simp only [serve, this, ih fun y hy => h y (.tail _ hy), List.map_cons]

/-- **C61**, threads, again: the answers thread `i` gets do not depend on what the others do. -/
theorem C61_thread_alone (l : List (Call (ReadOp V))) {c : Coll V} (h : ∀ x ∈ l, Steady E c x.op) (w : World) (i : Nat) :
    (serve E l c w).1.filter (fun x => x.thread == i) = (serve E (l.filter fun x => x.thread == i) c w).1 := by
  rw [C61_threads_steady l h, C61_threads_steady _ fun x hx => h x (List.mem_filter.1 hx).1]
  simp only [List.filter_map]
  rfl

/-- The operations that do not involve iterators are always defined. -/
def Unconditional {α : Type} : ReadOp V α → Prop
  | .isRegistered _ | .empty | .size | .emptyOf _ | .sizeOf _ | .maxSizeOf _ | .capacityOf _ | .allocator | .begin | .end
  | .beginOf _ | .endOf _ | .segments => True
  | _ => False

/-- **C61**, third part: reading a collection without iterators is defined, and throws only
`unregistered_type`, and that only if the type is not registered. -/
theorem C61_defined {c : Coll V} {w : World} (h : c.Reachable E k w) {α : Type} (r : ReadOp V α) (hr : Unconditional r) :
    Runs (r.run E) c w (fun _ c' w' => c' = c ∧ w' = w)
      (fun e c' w' => c' = c ∧ w' = w ∧ ∃ t, e = .unregistered t ∧ t ∉ c.abs.types) := by
  have hq : ∀ {β : Type} (f : Seg V → β) (t : TI), Runs (query E f t) c w (fun _ c' w' => c' = c ∧ w' = w)
      (fun e c' w' => c' = c ∧ w' = w ∧ ∃ t, e = .unregistered t ∧ t ∉ c.abs.types) := fun f t =>
    (query_runs E f t c w h.map).mono (fun _ _ _ hx => ⟨hx.1, hx.2.1⟩) fun e c' w' hx => ⟨hx.1, hx.2.1, _, hx.2.2.1, hx.2.2.2⟩
  cases r
  case begin =>
    obtain ⟨it, h1, -⟩ := C22_traversal h
    show Runs (Prog.ofOption (c.begin E)) c w _ _
    rw [h1]
    exact ⟨rfl, rfl⟩
  case segments =>
    obtain ⟨l, h1, -⟩ := C26_segment_traversal h
    show Runs (Prog.ofOption (c.segTraversal E)) c w _ _
    rw [h1]
    exact ⟨rfl, rfl⟩
  case emptyOf t => exact hq _ t
  case sizeOf t => exact hq _ t
  case maxSizeOf t => exact hq _ t
  case capacityOf t => exact hq _ t
  case beginOf t =>
    exact (beginInfo_runs E t c w h.map).mono (fun _ _ _ hx => ⟨hx.1, hx.2.1⟩) fun e c' w' hx => ⟨hx.1, hx.2.1, _, hx.2.2.1, hx.2.2.2⟩
  case endOf t =>
    exact (endInfo_runs E t c w h.map).mono (fun _ _ _ hx => ⟨hx.1, hx.2.1⟩) fun e c' w' hx => ⟨hx.1, hx.2.1, _, hx.2.2.1, hx.2.2.2⟩
  case isRegistered | empty | size | allocator | «end» => exact ⟨rfl, rfl⟩
  all_goals exact hr.elim

/-- Two threads: one asks for sizes, the other for a type that is not registered. -/
example (k : Kind) : (Sample.c0 k).Reachable Sample.E0 k (Sample.w0 k) ∧
    (serve Sample.E0 [⟨1, .sizeOf 0⟩, ⟨2, .sizeOf 7⟩, ⟨1, .size⟩] (Sample.c0 k) (Sample.w0 k)).1 =
      [⟨1, .value (3 : Nat)⟩, ⟨2, (.thrown (.unregistered 3) : Answer Nat)⟩, ⟨1, .value (5 : Nat)⟩] ∧
    Unconditional (.sizeOf 7 : ReadOp Nat Nat) ∧ (∀ x ∈ ([⟨1, .sizeOf 0⟩, ⟨2, .sizeOf 7⟩, ⟨1, .size⟩] : List (Call (ReadOp Nat))), Steady Sample.E0 (Sample.c0 k) x.op) :=
  ⟨Sample.reach0 k, by cases k <;> rfl, trivial, fun x hx => by
    rcases List.mem_cons.1 hx with rfl | hx
    · trivial
    · rcases List.mem_cons.1 hx with rfl | hx
      · trivial
      · rcases List.mem_cons.1 hx with rfl | hx
        · trivial
        · cases hx⟩

/-! ### C62 -/

/-- `l` is the local iterator of sort `o` to position `n` of segment `t`, the end included. -/
def LAt (E : Env V) (c : Coll V) : Sort' → LIter → Ty → Nat → Prop
  | .base => c.LAtB E
  | .terminal => c.LAtL E

theorem LAt.node {c : Coll V} {w : World} (h : c.Reachable E k w) {o : Sort'} {l : LIter} {t : Ty} {n : Nat} (hl : LAt E c o l t n) :
    ∃ x, c.map.Use E l.mapit x ∧ x.seg.ty = t ∧ x.seg.size = (c.abs.elemsOf t).length ∧ n ≤ x.seg.size ∧ l.pos = ⟨o.buffer x.seg, n⟩ := by
  cases o <;> obtain ⟨x, hx, ht, hn, hp⟩ := hl
  all_goals refine ⟨x, hx, ht, ?_, hn, hp⟩; rw [Seg.size_eq, (Ens.refl E h.map hx.mem).elems E h.map, ht]

theorem LAt.of_node {c : Coll V} {o : Sort'} {it : MapIt} {x : Node V} {n : Nat} (hx : c.map.Use E it x) (hn : n ≤ x.seg.size) :
    LAt E c o ⟨it, ⟨o.buffer x.seg, n⟩⟩ x.seg.ty n := by
  cases o
  · exact ⟨x, hx, rfl, hn, rfl⟩
  · exact ⟨x, hx, rfl, hn, rfl⟩

theorem LAt.both {c : Coll V} {w : World} (h : c.Reachable E k w) {o : Sort'} {a b : LIter} {t : Ty} {m n : Nat} (ha : LAt E c o a t m)
    (hb : LAt E c o b t n) : ∃ x ∈ c.map.nodes, a.pos = ⟨o.buffer x.seg, m⟩ ∧ b.pos = ⟨o.buffer x.seg, n⟩ ∧ m ≤ x.seg.size ∧ n ≤ x.seg.size := by
  obtain ⟨x, hx, h1, -, h2, h3⟩ := ha.node h
  obtain ⟨y, hy, g1, -, g2, g3⟩ := hb.node h
  have : x = y := PolyColl.eq_of_nodup (h.map.nodup_ty E) hx.mem hy.mem (h1.trans g1.symm)
  subst this
  exact ⟨x, hx.mem, h3, g3, h2, g2⟩

/-- **C62**, `it+n`, `it-n`, `++it`, `--it`: a local iterator moves by positions, up to the end of the segment and back. -/
theorem C62_advance {c : Coll V} {w : World} (h : c.Reachable E k w) {o : Sort'} {l : LIter} {t : Ty} {i j : Nat} (hl : LAt E c o l t i)
    (hj : j ≤ (c.abs.elemsOf t).length) : ∃ l', c.advance o l ((j : Int) - i) = some l' ∧ LAt E c o l' t j := by
  obtain ⟨x, hx, ht, hs, hi, hp⟩ := hl.node h
  refine ⟨⟨l.mapit, ⟨o.buffer x.seg, j⟩⟩, ?_, ht ▸ LAt.of_node hx (by omega)⟩
  unfold advance
  have hq : (l.pos.off : Int) + ((j : Int) - i) = j := by
    rw [hp]
    show (i : Int) + ((j : Int) - i) = j
    omega
  simp only [hq]
  rw [if_pos, hp]
  · simp
  · refine ⟨by omega, List.any_eq_true.2 ⟨x, hx.mem, ?_⟩⟩
    rw [hp]
    simp [Sort'.within]
    omega

/-- **C62**, the limits: moving an iterator before the beginning or beyond the end of its segment is
undefined. -/
theorem C62_advance_beyond {c : Coll V} {w : World} (h : c.Reachable E k w) {o : Sort'} {l : LIter} {t : Ty} {i : Nat} (hl : LAt E c o l t i)
    (d : Int) : c.advance o l d = none ↔ (i : Int) + d < 0 ∨ ((c.abs.elemsOf t).length : Int) < i + d := by
  refine ⟨fun hn => ?_, fun hd => ?_⟩
  · refine Classical.byContradiction fun hc => ?_
    obtain ⟨l', hl', -⟩ := C62_advance h hl (j := ((i : Int) + d).toNat) (by omega)
    rw [show ((((i : Int) + d).toNat : Nat) : Int) - i = d by omega, hn] at hl'
    cases hl'
  · obtain ⟨x, hx, rfl, hs, hi, hp⟩ := hl.node h
    unfold advance
    rw [if_neg]
    simp only [List.any_eq_true, Sort'.within, hp, Bool.and_eq_true, decide_eq_true_eq]
    rintro ⟨h0, y, hy, ⟨h1, -⟩, -, h2⟩
    have hlt : ((c.abs.elemsOf x.seg.ty).length : Int) < i + d := by omega
    have hm : ∀ s : Seg V, o.buffer s ∈ s.blocks := by
      intro s
      cases o
      · exact Seg.begin_blk_mem s
      · exact Seg.store_blk_mem s
    by_cases e : x = y
    · subst e; omega
    · have hz : o.buffer x.seg = 0 := by
        refine Classical.byContradiction fun hne => ?_
        exact hne (disj_mem h.inv.mem hx.mem hy e _ (hm _) (h1 ▸ hm _))
      have hsz : y.seg.size = 0 := by
        refine Classical.byContradiction fun hne => ?_
        have : o.buffer y.seg ≠ 0 := by
          cases o
          · exact Seg.begin_blk_ne E (h.inv.mem.segs y hy).core (by omega)
          · exact Seg.store_blk_ne (h.inv.mem.segs y hy).core (by omega)
        exact this (h1.symm.trans hz)
      omega

example (k : Kind) := C62_advance_beyond (Sample.reach0 k) (o := .base) (Sample.lbase_at k (n := 1) (by decide)) 2

/-- **C62**, `b-a`: the difference is that of the positions. -/
theorem C62_difference {c : Coll V} {w : World} (h : c.Reachable E k w) {o : Sort'} {a b : LIter} {t : Ty} {i j : Nat} (ha : LAt E c o a t i)
    (hb : LAt E c o b t j) : c.difference o a b = some ((j : Int) - i) := by
  obtain ⟨x, hx, h1, h2, h3, h4⟩ := ha.both h hb
  unfold difference
  rw [if_pos, h1, h2]
  refine List.any_eq_true.2 ⟨x, hx, ?_⟩
  rw [h1, h2]
  simp [Sort'.within]
  omega

/-- **C62**, `a<b` is the order of positions. -/
theorem C62_less {c : Coll V} {w : World} (h : c.Reachable E k w) {o : Sort'} {a b : LIter} {t : Ty} {i j : Nat} (ha : LAt E c o a t i)
    (hb : LAt E c o b t j) : c.less o a b = some (decide (i < j)) := by
  unfold less
  rw [C62_difference h ha hb]
  simp only [Option.map_some, Option.some.injEq, decide_eq_decide]
  omega

/-- **C62**, `a==b` (C24 says the same of global iterators). -/
theorem C62_equal {c : Coll V} {w : World} (h : c.Reachable E k w) {o : Sort'} {a b : LIter} {t : Ty} {i j : Nat} (ha : LAt E c o a t i)
    (hb : LAt E c o b t j) : a.pos = b.pos ↔ i = j := by
  obtain ⟨x, -, h1, h2, -, -⟩ := ha.both h hb
  rw [h1, h2]
  simp

example (k : Kind) := C62_equal (Sample.reach0 k) (o := .base) (Sample.lbase_at k (n := 1) (by decide)) (Sample.lbase_at k (n := 3) (by decide))

/-- **C62**, the limits: there is no distance from an element of a segment to one of another, nor are they
ordered. -/
theorem C62_apart {c : Coll V} {w : World} (h : c.Reachable E k w) {o : Sort'} {a b : LIter} {t u : Ty} {i j : Nat} (ha : LAt E c o a t i)
    (hb : LAt E c o b u j) (hne : t ≠ u) (hi : i < (c.abs.elemsOf t).length) : c.difference o a b = none ∧ c.less o a b = none := by
  suffices c.difference o a b = none from ⟨this, by unfold less; rw [this]; rfl⟩
  obtain ⟨x, hx, rfl, hs, -, hp⟩ := ha.node h
  obtain ⟨y, hy, rfl, -, -, hq⟩ := hb.node h
  unfold difference
  rw [if_neg]
  simp only [List.any_eq_true, Sort'.within, hp, hq, Bool.and_eq_true, decide_eq_true_eq]
  rintro ⟨z, hz, ⟨h1, -⟩, h2, -⟩
  have hxy : x ≠ y := fun e => hne (by rw [e])
  have h0 : o.buffer x.seg ≠ 0 := by
    cases o
    · exact Seg.begin_blk_ne E (h.inv.mem.segs x hx.mem).core (by omega)
    · exact Seg.store_blk_ne (h.inv.mem.segs x hx.mem).core (by omega)
  have hm : ∀ s : Seg V, o.buffer s ∈ s.blocks := by
    intro s
    cases o
    · exact Seg.begin_blk_mem s
    · exact Seg.store_blk_mem s
  exact h0 (disj_mem h.inv.mem hx.mem hy.mem hxy _ (hm _) (h1.trans h2.symm ▸ hm _))

/-- **C62**, `it[n]`: the element `n` places further on (or back). -/
theorem C62_subscript {c : Coll V} {w : World} (h : c.Reachable E k w) {o : Sort'} {l : LIter} {t : Ty} {i j : Nat} (hl : LAt E c o l t i)
    (hj : j < (c.abs.elemsOf t).length) : c.subscript o l ((j : Int) - i) = (c.abs.elemsOf t)[j]? := by
  obtain ⟨l', h1, h2⟩ := C62_advance h hl (Nat.le_of_lt hj)
  unfold subscript
  rw [h1]
  cases o
  · exact deref_latB (h.inv.core E) h2 hj
  · exact deref_latL (h.inv.core E) h2 hj

/-- **C62**, the ends: `begin(info)` and `end(info)` are positions 0 and `size(info)`; by conversion so are `begin<T>()` and `end<T>()`. -/
theorem C62_ends {c : Coll V} {w : World} (h : c.Reachable E k w) {t : TI} (ht : E.tiTy t ∈ c.abs.types) :
    ∃ a b a' b', beginInfo E t c w = .ok a c w ∧ endInfo E t c w = .ok b c w ∧ c.toLocal E a = some a' ∧ c.toLocal E b = some b' ∧
      LAt E c .base a (E.tiTy t) 0 ∧ LAt E c .base b (E.tiTy t) (c.abs.elemsOf (E.tiTy t)).length ∧
      LAt E c .terminal a' (E.tiTy t) 0 ∧ LAt E c .terminal b' (E.tiTy t) (c.abs.elemsOf (E.tiTy t)).length := by
  have h1 := beginInfo_runs E t c w h.map
  have h2 := endInfo_runs E t c w h.map
  unfold Runs at h1 h2
  cases hb : beginInfo E t c w with
  | ub => rw [hb] at h1; exact h1.elim
  | exc e c' w' => rw [hb] at h1; exact (h1.2.2.2 ht).elim
  | ok a c' w' =>
    rw [hb] at h1
    obtain ⟨rfl, rfl, h1, -⟩ := h1
    cases he : endInfo E t c' w' with
    | ub => rw [he] at h2; exact h2.elim
    | exc e c' w' => rw [he] at h2; exact (h2.2.2.2 ht).elim
    | ok b c'' w'' =>
      rw [he] at h2
      obtain ⟨rfl, rfl, h2, -⟩ := h2
      obtain ⟨a', ha, ha'⟩ := toLocal_at E (h.inv.core E) h1
      obtain ⟨b', hb, hb'⟩ := toLocal_at E (h.inv.core E) h2
      exact ⟨a, b, a', b', rfl, rfl, ha, hb, h1, h2, ha', hb'⟩

/-- **C62**, conversion between the two sorts of local iterators commutes with moving. -/
theorem C62_convert {c : Coll V} {w : World} (h : c.Reachable E k w) {l l' : LIter} {t : Ty} {i j : Nat} (hl : LAt E c .base l t i)
    (hl' : c.toLocal E l = some l') (hj : j ≤ (c.abs.elemsOf t).length) :
    (c.advance .base l ((j : Int) - i)).bind (c.toLocal E) = c.advance .terminal l' ((j : Int) - i) := by
  obtain ⟨x, hx, rfl, hs, hi, hp⟩ := hl.node h
  have hl0 : l = ⟨l.mapit, x.seg.base i⟩ := by
    obtain ⟨m, p⟩ := l
    simp only at hp
    subst hp
    rfl
  have h1 : l' = ⟨l.mapit, x.seg.loc i⟩ := by
    rw [hl0, toLocal_use E (h.inv.core E) hx hi] at hl'
    exact (Option.some.inj hl').symm
  have hb : LAt E c .base ⟨l.mapit, x.seg.base i⟩ x.seg.ty i := LAt.of_node (o := .base) hx hi
  have ht : LAt E c .terminal ⟨l.mapit, x.seg.loc i⟩ x.seg.ty i := LAt.of_node (o := .terminal) hx hi
  have e1 : c.advance .base l ((j : Int) - i) = some ⟨l.mapit, x.seg.base j⟩ := by
    obtain ⟨q, hq, hq'⟩ := C62_advance h hl hj
    rw [hq]
    unfold advance at hq
    simp only at hq
    split at hq
    · cases hq
      rw [hp]
      simp [Sort'.buffer, Seg.base]
      omega
    · cases hq
  have e2 : c.advance .terminal l' ((j : Int) - i) = some ⟨l.mapit, x.seg.loc j⟩ := by
    rw [h1]
    obtain ⟨q, hq, hq'⟩ := C62_advance h ht hj
    rw [hq]
    unfold advance at hq
    simp only at hq
    split at hq
    · cases hq
      simp [Seg.loc, Vec.ptr]
      omega
    · cases hq
  rw [e1, e2]
  exact toLocal_use E (h.inv.core E) hx (by omega)

/-- The second element of the segment of type 0, from its end, through both sorts of iterators. -/
example (k : Kind) : ∃ b b', (Sample.c0 k).Reachable Sample.E0 k (Sample.w0 k) ∧ LAt Sample.E0 (Sample.c0 k) .base b 0 3 ∧
    LAt Sample.E0 (Sample.c0 k) .terminal b' 0 3 ∧ (Sample.c0 k).toLocal Sample.E0 b = some b' ∧
    (Sample.c0 k).subscript .base b (-2) = some 2 ∧ (Sample.c0 k).subscript .terminal b' (-2) = some 2 := by
  have ht : Sample.E0.tiTy 0 ∈ (Sample.c0 k).abs.types := by rw [Sample.abs0]; decide
  have hl : ((Sample.c0 k).abs.elemsOf (Sample.E0.tiTy 0)) = [1, 2, 3] := by rw [Sample.abs0]; rfl
  obtain ⟨a, b, a', b', -, -, -, h2, -, h4, -, h6⟩ := C62_ends (Sample.reach0 k) ht
  have e1 := C62_subscript (Sample.reach0 k) h4 (j := 1) (by rw [hl]; decide)
  have e2 := C62_subscript (Sample.reach0 k) h6 (j := 1) (by rw [hl]; decide)
  rw [hl] at h4 h6 e1 e2
  exact ⟨b, b', Sample.reach0 k, h4, h6, h2, e1, e2⟩

/-- The first element of type 1 and the end of segment 0, for `C62_apart`. -/
example (k : Kind) (o : Sort') : ∃ a b, LAt Sample.E0 (Sample.c0 k) o a 1 0 ∧ LAt Sample.E0 (Sample.c0 k) o b 0 3 ∧
    0 < ((Sample.c0 k).abs.elemsOf 1).length := by
  have h1 : Sample.E0.tiTy 2 ∈ (Sample.c0 k).abs.types := by rw [Sample.abs0]; decide
  have h0 : Sample.E0.tiTy 0 ∈ (Sample.c0 k).abs.types := by rw [Sample.abs0]; decide
  have hl : ((Sample.c0 k).abs.elemsOf (Sample.E0.tiTy 0)) = [1, 2, 3] := by rw [Sample.abs0]; rfl
  obtain ⟨a, -, a', -, -, -, -, -, ha, -, ha', -⟩ := C62_ends (Sample.reach0 k) h1
  obtain ⟨-, b, -, b', -, -, -, -, -, hb, -, hb'⟩ := C62_ends (Sample.reach0 k) h0
  rw [hl] at hb hb'
  cases o
  · exact ⟨a, b, ha, hb, by rw [Sample.abs0]; decide⟩
  · exact ⟨a', b', ha', hb', by rw [Sample.abs0]; decide⟩

end PolyColl.Props
