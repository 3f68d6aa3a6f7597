import Verif.Model.Holder
import Verif.Props.Sample
import Verif.Lemmas.Runs
/-!
# Property C71: lifetimes of the elements

Seen by a client of `value_holder` that respects the lifetimes of the holders, like `std::vector`.
-/

namespace PolyColl.Props
open PolyColl Prog Holder

variable {V : Type} {E : Env V} {T : Elem V}

/-! ### The client -/

/-- A source that can be used if the holders `alive` are alive. -/
def _root_.PolyColl.Holder.Source.Ok (alive : Nat → Bool) : Source V → Prop
  | .copyHolder b | .moveHolder b => alive b = true
  | _ => True

/-- An operation that can be used if the holders `alive` are alive: nothing is constructed where there
is something, nothing else is used before it is constructed or after it is destroyed. -/
def _root_.PolyColl.Holder.HOp.Ok (alive : Nat → Bool) : HOp V → Prop
  | .construct _ a src | .make a src => alive a = false ∧ src.Ok alive
  | .destroy _ a | .drop a => alive a = true
  | .assign a b | .equal a b => alive a = true ∧ alive b = true

/-- The holders that are alive after an operation that has not thrown. -/
def _root_.PolyColl.Holder.HOp.after (alive : Nat → Bool) : HOp V → Nat → Bool
  | .construct _ a _ | .make a _ => fun b => if b = a then true else alive b
  | .destroy _ a | .drop a => fun b => if b = a then false else alive b
  | .assign _ _ | .equal _ _ => alive

/-- What a client that only uses operations satisfying `P` can arrive at: storage and holders alive. -/
inductive Client (E : Env V) (T : Elem V) (P : HOp V → Prop) : Store V → (Nat → Bool) → World → Prop where
  | start (w : World) : Client E T P ⟨fun _ => none, []⟩ (fun _ => false) w
  | ok {s s' : Store V} {alive : Nat → Bool} {w w' : World} (h : Client E T P s alive w) (op : HOp V) (hp : P op) (ho : op.Ok alive)
      (hr : op.run E T s w = .ok () s' w') : Client E T P s' (op.after alive) w'
  | exc {s s' : Store V} {alive : Nat → Bool} {w w' : World} {e : Exc} (h : Client E T P s alive w) (op : HOp V) (hp : P op) (ho : op.Ok alive)
      (hr : op.run E T s w = .exc e s' w') : Client E T P s' alive w'

/-- A sequence of events, latest first, in the life of one holder: construction and destruction
alternate, construction comes first, and comes last if `alive`. -/
def Life : Bool → List Event → Prop
  | false, [] => True
  | true, .construct _ _ :: l => Life false l
  | false, .destroy _ _ :: l => Life true l
  | _, _ => False

/-- The events concerning one holder. -/
def events (s : Store V) (a : Nat) : List Event := s.log.filter fun e => e.addr == a

/-! ### What one operation does -/

/-- Objects and events match the holders alive. -/
structure Matches (s : Store V) (alive : Nat → Bool) : Prop where
  obj : ∀ a, (s.obj a).isSome = alive a
  life : ∀ a, Life (alive a) (events s a)

theorem Matches.present {s : Store V} {alive : Nat → Bool} (h : Matches s alive) {a : Nat} (ha : alive a = true) : ∃ v, s.obj a = some v :=
  Option.isSome_iff_exists.1 ((h.obj a).trans ha)

theorem Matches.absent {s : Store V} {alive : Nat → Bool} (h : Matches s alive) {a : Nat} (ha : alive a = false) : s.obj a = none := by
  have := (h.obj a).trans ha
  simpa using this

theorem Matches.put {s : Store V} {alive : Nat → Bool} (h : Matches s alive) {a : Nat} (ha : alive a = true) (v : V) :
    Matches { s with obj := fun b => if b = a then some v else s.obj b } alive := by
  refine ⟨fun b => ?_, h.life⟩
  simp only
  split
  · next e => rw [e, ha]; rfl
  · exact h.obj b

theorem Matches.create {s : Store V} {alive : Nat → Bool} (h : Matches s alive) {a : Nat} (ha : alive a = false) (v : V) (via : Option Alloc) :
    Matches ⟨fun b => if b = a then some v else s.obj b, .construct via a :: s.log⟩ (fun b => if b = a then true else alive b) := by
  refine ⟨fun b => ?_, fun b => ?_⟩
  · simp only
    split
    · rfl
    · exact h.obj b
  · have := h.life b
    simp only [events, List.filter_cons, Event.addr, beq_iff_eq] at this ⊢
    by_cases e : b = a
    · subst e; rw [ha] at this; simpa [Life] using this
    · rw [if_neg e, if_neg (fun e' : a = b => e e'.symm)]; exact this

theorem Matches.destroy {s : Store V} {alive : Nat → Bool} (h : Matches s alive) {a : Nat} (ha : alive a = true) (via : Option Alloc) :
    Matches ⟨fun b => if b = a then Option.none else s.obj b, .destroy via a :: s.log⟩ (fun b => if b = a then false else alive b) := by
  refine ⟨fun b => ?_, fun b => ?_⟩
  · simp only
    split
    · rfl
    · exact h.obj b
  · have := h.life b
    simp only [events, List.filter_cons, Event.addr, beq_iff_eq] at this ⊢
    by_cases e : b = a
    · subst e; rw [ha] at this; simpa [Life] using this
    · rw [if_neg e, if_neg (fun e' : a = b => e e'.symm)]; exact this

/-- The value of a source. -/
def _root_.PolyColl.Holder.Source.val (obj : Nat → Option V) : Source V → Option V
  | .copy v | .move v | .emplace v => some v
  | .copyHolder b | .moveHolder b => obj b

/-- The objects after one of them may have been moved from. -/
def _root_.PolyColl.Holder.Source.rest (T : Elem V) (obj : Nat → Option V) : Source V → Nat → Option V
  | .moveHolder b => fun c => if c = b then (obj b).map T.moved else obj c
  | _ => obj

/-- The objects after an operation. -/
def _root_.PolyColl.Holder.HOp.effect (E : Env V) (T : Elem V) (obj : Nat → Option V) : HOp V → Nat → Option V
  | .construct _ a src | .make a src => fun b => if b = a then src.val obj else src.rest T obj b
  | .destroy _ a | .drop a => fun b => if b = a then none else obj b
  | .assign a b =>
    if a = b then fun c => if c = a ∧ (E.traits T.ty).moveAssignable = true then (obj c).map T.selfMoved else obj c
    else fun c => if c = a then obj b else if c = b then (obj b).map T.moved else obj c
  | .equal _ _ => obj

/-- Exceptions that an operation of a holder can be left by. -/
def HolderExc (E : Env V) (T : Elem V) (e : Exc) : Prop :=
  e = .user ∧ (∃ i, E.fault i = true) ∨ e = .notCopyConstructible T.ty ∧ (E.traits T.ty).copyable = false ∨
    e = .notEqualityComparable T.ty ∧ (E.traits T.ty).eqComparable = false

/-- Storage with one more object. -/
def withObj (s : Store V) (via : Option Alloc) (a : Nat) (v : V) : Store V :=
  ⟨fun b => if b = a then some v else s.obj b, .construct via a :: s.log⟩

theorem new_runs {s : Store V} (w : World) (via : Option Alloc) {a : Nat} (ha : s.obj a = none) (b : Bool) (v : V) :
    Runs (do E.userOp b; create via a v : Prog (Store V) Unit) s w
      (fun _ s' _ => s' = withObj s via a v) (fun e s' _ => s' = s ∧ b = false ∧ e = .user ∧ ∃ i, E.fault i = true) := by
  simp only [create, runs_bind, runs_get, runs_set, runs_ite, runs_undef, Env.runs_userOp, ha]
  exact ⟨fun _ => ⟨fun _ => rfl, fun h => absurd trivial h⟩,
    fun hb => ⟨fun hf => ⟨trivial, hb, trivial, _, hf⟩, fun _ => ⟨fun _ => rfl, fun h => absurd trivial h⟩⟩⟩

theorem copy_runs {s : Store V} (w : World) (via : Option Alloc) {a : Nat} (ha : s.obj a = none) (v : V) :
    Runs (copy E T via a v) s w
      (fun _ s' _ => s' = withObj s via a v)
      (fun e s' _ => s' = s ∧ ((E.traits T.ty).copyable && quietCopy E T via) = false ∧ HolderExc E T e) := by
  unfold copy
  rw [runs_ite]
  refine ⟨fun hc => (new_runs w via ha _ v).mono (fun _ _ _ h => h) ?_, fun hc => ?_⟩
  · rintro e s' w' ⟨h1, h2, h3, h4⟩
    exact ⟨h1, by simp [h2], Or.inl ⟨h3, h4⟩⟩
  · have hc := Bool.eq_false_iff.2 hc
    exact ⟨rfl, by simp [hc], Or.inr (Or.inl ⟨rfl, hc⟩)⟩

/-- The constructor does not throw. -/
def _root_.PolyColl.Holder.Source.quiet (E : Env V) (T : Elem V) (via : Option Alloc) : Source V → Bool
  | .copy _ | .copyHolder _ => (E.traits T.ty).copyable && quietCopy E T via
  | .move _ | .moveHolder _ => quietMove E T via
  | .emplace _ => false

/-- The operation does not throw. -/
def _root_.PolyColl.Holder.HOp.quiet (E : Env V) (T : Elem V) : HOp V → Bool
  | .construct al _ src => src.quiet E T (some al)
  | .make _ src => src.quiet E T none
  | op => op.noexcept (E.traits T.ty)

/-- `construct` of the allocator throws only if copy and move constructors can. -/
structure TameCons (E : Env V) (T : Elem V) : Prop where
  copy : (E.traits T.ty).nothrowCopy = true → T.consCopy = true
  move : (E.traits T.ty).nothrowMove = true → T.consMove = true

/-- `construct` of the allocator throws if and only if copy and move constructors do, as that of `std::allocator`. -/
structure PlainCons (E : Env V) (T : Elem V) : Prop where
  copy : T.consCopy = (E.traits T.ty).nothrowCopy
  move : T.consMove = (E.traits T.ty).nothrowMove

theorem PlainCons.quietCopy {E : Env V} {T : Elem V} (h : PlainCons E T) (via : Option Alloc) : quietCopy E T via = (E.traits T.ty).nothrowCopy := by
  cases via
  · rfl
  · exact h.copy

theorem PlainCons.quietMove {E : Env V} {T : Elem V} (h : PlainCons E T) (via : Option Alloc) : quietMove E T via = (E.traits T.ty).nothrowMove := by
  cases via
  · rfl
  · exact h.move

theorem PlainCons.quiet {E : Env V} {T : Elem V} (h : PlainCons E T) (op : HOp V) : op.quiet E T = op.noexcept (E.traits T.ty) := by
  have hs : ∀ via (src : Source V), src.quiet E T via = src.noexcept (E.traits T.ty) := by
    intro via src
    cases src <;> simp only [Source.quiet, Source.noexcept, h.quietCopy, h.quietMove]
  cases op with
  | construct al a src => exact hs _ src
  | make a src => exact hs _ src
  | _ => rfl

theorem ctor_runs {s : Store V} {alive : Nat → Bool} (h : Matches s alive) (w : World) (via : Option Alloc) {a : Nat} {src : Source V}
    (ha : alive a = false) (hs : src.Ok alive) :
    Runs (ctor E T via a src) s w
      (fun _ s' _ => Matches s' (fun b => if b = a then true else alive b) ∧
        s'.obj = (fun b => if b = a then src.val s.obj else src.rest T s.obj b) ∧ s'.log = .construct via a :: s.log)
      (fun e s' _ => s' = s ∧ src.quiet E T via = false ∧ HolderExc E T e) := by
  have hn := h.absent ha
  cases src with
  | copy v =>
    refine (copy_runs w via hn v).mono ?_ (fun _ _ _ h => h)
    rintro _ s' _ rfl
    exact ⟨h.create ha v via, rfl, rfl⟩
  | move v =>
    refine (new_runs w via hn _ v).mono ?_ (fun _ _ _ h => ⟨h.1, h.2.1, Or.inl h.2.2⟩)
    rintro _ s' _ rfl
    exact ⟨h.create ha v via, rfl, rfl⟩
  | emplace v =>
    refine (new_runs w via hn _ v).mono ?_ (fun _ _ _ h => ⟨h.1, h.2.1, Or.inl h.2.2⟩)
    rintro _ s' _ rfl
    exact ⟨h.create ha v via, rfl, rfl⟩
  | copyHolder b =>
    obtain ⟨v, hv⟩ := h.present hs
    simp only [ctor, ctorCopyHolder, value, runs_bind, runs_get, hv, runs_some]
    refine (copy_runs w via hn v).mono ?_ (fun _ _ _ h => h)
    rintro _ s' _ rfl
    exact ⟨h.create ha v via, by simp only [Source.val, hv]; rfl, rfl⟩
  | moveHolder b =>
    obtain ⟨v, hv⟩ := h.present hs
    have hne : b ≠ a := fun e => by rw [e, hn] at hv; cases hv
    simp only [ctor, ctorMoveHolder, value, runs_bind, runs_get, hv, runs_some]
    refine (new_runs w via hn _ v).mono ?_ (fun _ _ _ h => ⟨h.1, h.2.1, Or.inl h.2.2⟩)
    rintro _ s' _ rfl
    simp only [Holder.put, runs_bind, runs_get, runs_set]
    refine ⟨(h.create ha v via).put (by simp only [if_neg hne]; exact hs) _, ?_, rfl⟩
    funext c
    simp only [withObj, Source.val, Source.rest, hv, Option.map_some]
    by_cases e : c = b
    · subst e; simp [hne]
    · simp [e]

/-- The events of an operation, latest first. -/
def _root_.PolyColl.Holder.HOp.events (E : Env V) (T : Elem V) : HOp V → List Event
  | .construct al a _ => [.construct (some al) a]
  | .make a _ => [.construct none a]
  | .destroy al a => [.destroy (some al) a]
  | .drop a => [.destroy none a]
  | .assign a b => if a ≠ b ∧ (E.traits T.ty).moveAssignable = false then [.construct none a, .destroy none a] else []
  | .equal _ _ => []

theorem assign_runs (hacc : (E.traits T.ty).acceptable = true) {s : Store V} {alive : Nat → Bool} (h : Matches s alive) (w : World) {a b : Nat}
    (ha : alive a = true) (hb : alive b = true) :
    Runs (assign E T a b) s w
      (fun _ s' _ => Matches s' alive ∧ s'.obj = (HOp.assign a b).effect E T s.obj ∧ s'.log = (HOp.assign a b).events E T ++ s.log)
      (fun e s' _ => s' = s ∧ (HOp.assign a b : HOp V).noexcept (E.traits T.ty) = false ∧ HolderExc E T e) := by
  obtain ⟨x, hx⟩ := h.present ha
  obtain ⟨y, hy⟩ := h.present hb
  unfold assign moveAssign
  rw [runs_ite]
  refine ⟨fun hm => ?_, fun hm => ?_⟩
  · simp only [value, runs_bind, runs_get, hx, hy, runs_some, Env.runs_userOp]
    have ok : ∀ w' : World, Runs (if a = b then Holder.put a (T.selfMoved y) else do Holder.put a y; Holder.put b (T.moved y)) s w'
        (fun _ s' _ => Matches s' alive ∧ s'.obj = (HOp.assign a b).effect E T s.obj ∧ s'.log = (HOp.assign a b).events E T ++ s.log)
        (fun e s' _ => s' = s ∧ (HOp.assign a b : HOp V).noexcept (E.traits T.ty) = false ∧ HolderExc E T e) := by
      intro w'
      rw [runs_ite]
      refine ⟨fun e => ?_, fun e => ?_⟩
      · subst e
        refine ⟨h.put ha _, ?_, by simp [HOp.events]⟩
        funext c
        simp only [HOp.effect, if_true, hm, and_true]
        by_cases e : c = a
        · subst e; simp [hy]
        · simp [e]
      · refine ⟨(h.put ha _).put hb _, ?_, by simp [HOp.events, hm]⟩
        funext c
        simp only [HOp.effect, if_neg e, hy, Option.map_some]
        by_cases e1 : c = b
        · subst e1; simp [Ne.symm e]
        · simp [e1]
    refine ⟨fun _ => ok _, fun hn => ⟨fun hf => ⟨trivial, ?_, Or.inl ⟨rfl, _, hf⟩⟩, fun _ => ok _⟩⟩
    simp [HOp.noexcept, hn, hm]
  · have hm := Bool.eq_false_iff.2 hm
    have hnt : (E.traits T.ty).nothrowMove = true := by simpa [Traits.acceptable, hm] using hacc
    simp only [value, runs_bind, runs_get, hy, runs_some, runs_ite, runs_pure]
    refine ⟨fun e => ?_, fun e => ?_⟩
    · rw [hx, runs_some]
      simp only [Holder.destroy, newMove, create, runs_bind, runs_get, runs_ite, runs_undef, runs_set, hx, Env.runs_userOp, quietMove, Option.isSome_none, Bool.false_eq_true, if_false, hnt, if_true]
      refine ⟨nofun, fun _ => ⟨fun _ => ⟨fun _ => ?_, fun h => absurd trivial h⟩, nofun⟩⟩
      have h2 := ((h.destroy ha none).create (a := a) (by simp) y none)
      have e2 : (fun c => if c = a then true else if c = a then false else alive c) = alive := by
        funext c
        by_cases e : c = a
        · simp [e, ha]
        · simp [e]
      rw [e2] at h2
      refine ⟨h2.put hb _, ?_, by simp [HOp.events, e, hm]⟩
      funext c
      simp only [HOp.effect, if_neg e, hy, Option.map_some]
      by_cases e1 : c = b
      · subst e1; simp [Ne.symm e]
      · by_cases e3 : c = a
        · simp [e3, e]
        · simp [e1, e3]
    · have e : a = b := Classical.not_not.1 e
      exact ⟨h, by simp [HOp.effect, e, hm], by simp [HOp.events, e]⟩

theorem op_runs (hacc : (E.traits T.ty).acceptable = true) {s : Store V} {alive : Nat → Bool} (h : Matches s alive) (w : World) (op : HOp V)
    (ho : op.Ok alive) :
    Runs (op.run E T) s w
      (fun _ s' _ => Matches s' (op.after alive) ∧ s'.obj = op.effect E T s.obj ∧ s'.log = op.events E T ++ s.log)
      (fun e s' _ => s' = s ∧ op.quiet E T = false ∧ HolderExc E T e) := by
  cases op with
  | construct al a src => exact ctor_runs h w (some al) ho.1 ho.2
  | make a src => exact ctor_runs h w none ho.1 ho.2
  | destroy al a =>
    obtain ⟨x, hx⟩ := h.present ho
    simp only [HOp.run, Holder.destroy, runs_bind, runs_get, runs_ite, runs_undef, runs_set, hx]
    exact ⟨nofun, fun _ => ⟨h.destroy ho (some al), rfl, rfl⟩⟩
  | drop a =>
    obtain ⟨x, hx⟩ := h.present ho
    simp only [HOp.run, dtor, value, Holder.destroy, runs_bind, runs_get, runs_ite, runs_undef, runs_set, hx, runs_some]
    exact ⟨nofun, fun _ => ⟨h.destroy ho none, rfl, rfl⟩⟩
  | assign a b => exact assign_runs hacc h w ho.1 ho.2
  | equal a b =>
    obtain ⟨x, hx⟩ := h.present ho.1
    obtain ⟨y, hy⟩ := h.present ho.2
    simp only [HOp.run, Holder.equal, value, runs_bind, runs_get, runs_ite, runs_raise, runs_pure, hx, hy, runs_some]
    rw [Env.runs_userOp]
    refine ⟨fun _ => ⟨fun _ => ⟨h, rfl, rfl⟩, fun hn => ⟨fun hf => ⟨rfl, by simp [HOp.quiet, HOp.noexcept, hn], Or.inl ⟨rfl, _, hf⟩⟩, fun _ => ⟨h, rfl, rfl⟩⟩⟩, fun hc => ⟨trivial, ?_, ?_⟩⟩
    · simp [HOp.quiet, HOp.noexcept, hc]
    · exact Or.inr (Or.inr ⟨rfl, Bool.eq_false_iff.2 hc⟩)

theorem client_matches (hacc : (E.traits T.ty).acceptable = true) {P : HOp V → Prop} {s : Store V} {alive : Nat → Bool} {w : World}
    (h : Client E T P s alive w) : Matches s alive := by
  induction h with
  | start w => exact ⟨fun _ => rfl, fun _ => trivial⟩
  | ok _ op _ ho hr ih => exact (runs_ok (op_runs hacc ih _ op ho) hr).1
  | exc _ op _ ho hr ih => rw [(runs_exc (op_runs hacc ih _ op ho) hr).1]; exact ih

/-! ### The property -/

/-- **C71.**  For an acceptable type and whatever a client does that respects the lifetimes of the
holders: there is an object exactly in the holders that are alive; in each holder creation and
destruction of objects alternate; and no operation destroys or uses an object that does not exist or
creates one over another.  An operation that throws leaves all objects. -/
theorem C71_lifetimes (hacc : (E.traits T.ty).acceptable = true) {P : HOp V → Prop} {s : Store V} {alive : Nat → Bool} {w : World}
    (h : Client E T P s alive w) :
    (∀ a, (s.obj a).isSome = alive a) ∧ (∀ a, Life (alive a) (events s a)) ∧
    ∀ op : HOp V, op.Ok alive → Runs (op.run E T) s w (fun _ _ _ => True) (fun e s' _ => s' = s ∧ HolderExc E T e) :=
  have hm := client_matches hacc h
  ⟨hm.obj, hm.life, fun op ho => (op_runs hacc hm w op ho).mono (fun _ _ _ _ => trivial) (fun _ _ _ h => ⟨h.1, h.2.2⟩)⟩

/-- **C71**, values: an object has the value it was constructed from, or that was last assigned to it
(or is moved from); other objects are not touched.  If the type is not move assignable, assignment to
itself does nothing. -/
theorem C71_values (hacc : (E.traits T.ty).acceptable = true) {P : HOp V → Prop} {s s' : Store V} {alive : Nat → Bool} {w w' : World}
    (h : Client E T P s alive w) (op : HOp V) (ho : op.Ok alive) (hr : op.run E T s w = .ok () s' w') : s'.obj = op.effect E T s.obj :=
  (runs_ok (op_runs hacc (client_matches hacc h) w op ho) hr).2.1

/-- **C71**, exception specifications: an operation of `value_holder` declared `noexcept` does not
throw, if the allocator's `construct` does not throw where copy and move constructors do not.  Missing: other allocators, where
this is wrong (`C71_terminates`). -/
theorem C71_noexcept_partial (hacc : (E.traits T.ty).acceptable = true) (hc : TameCons E T) {P : HOp V → Prop} {s : Store V} {alive : Nat → Bool} {w : World}
    (h : Client E T P s alive w) (op : HOp V) (ho : op.Ok alive) (hn : op.noexcept (E.traits T.ty) = true) :
    Runs (op.run E T) s w (fun _ _ _ => True) (fun _ _ _ => False) := by
  refine (op_runs hacc (client_matches hacc h) w op ho).mono (fun _ _ _ _ => trivial) (fun _ _ _ h => ?_)
  have hsrc : ∀ (via : Option Alloc) (src : Source V), src.noexcept (E.traits T.ty) = true → src.quiet E T via = true := by
    intro via src hn
    have h1 := hc.copy
    have h2 := hc.move
    cases src <;> simp only [Source.noexcept, Bool.and_eq_true, Bool.false_eq_true] at hn <;>
      cases via <;> simp_all [Source.quiet, quietCopy, quietMove]
  have hq : op.quiet E T = true := by
    cases op with
    | construct al a src => exact hsrc (some al) src hn
    | make a src => exact hsrc none src hn
    | _ => exact hn
  rw [hq] at h
  exact absurd h.2.1 nofun

theorem quiet_throws (hacc : (E.traits T.ty).acceptable = true) {P : HOp V → Prop} {s : Store V} {alive : Nat → Bool} {w : World}
    (h : Client E T P s alive w) (op : HOp V) (ho : op.Ok alive) (hn : op.quiet E T = false) (hf : E.fault w.tick = true) :
    Runs (op.run E T) s w (fun _ _ _ => False) (fun _ _ _ => True) := by
  have hm := client_matches hacc h
  have hnew : ∀ via a v b, b = false → Runs (do E.userOp b; create via a v : Prog (Store V) Unit) s w (fun _ _ _ => False) (fun _ _ _ => True) := by
    intro via a v b hb
    rw [runs_bind, Env.runs_userOp]
    exact ⟨fun hb' => (by rw [hb] at hb'; cases hb'), fun _ => ⟨fun _ => trivial, fun hx => by rw [hf] at hx; cases hx⟩⟩
  have hcopy : ∀ via a v, ((E.traits T.ty).copyable && quietCopy E T via) = false →
      Runs (copy E T via a v) s w (fun _ _ _ => False) (fun _ _ _ => True) := by
    intro via a v hc
    unfold copy
    rw [runs_ite]
    refine ⟨fun hy => hnew via a v _ ?_, fun _ => trivial⟩
    simpa [hy] using hc
  have hctor : ∀ via a (src : Source V), src.Ok alive → src.quiet E T via = false →
      Runs (ctor E T via a src) s w (fun _ _ _ => False) (fun _ _ _ => True) := by
    intro via a src hs hx
    cases src with
    | copy v => exact hcopy via a v hx
    | move v => exact hnew via a v _ hx
    | emplace v => exact hnew via a v _ rfl
    | copyHolder b =>
      obtain ⟨v, hv⟩ := hm.present hs
      simp only [ctor, ctorCopyHolder, value, runs_bind, runs_get, hv, runs_some]
      exact hcopy via a v hx
    | moveHolder b =>
      obtain ⟨v, hv⟩ := hm.present hs
      simp only [ctor, ctorMoveHolder, value, runs_bind, runs_get, hv, runs_some]
      exact (hnew via a v _ hx).mono (fun _ _ _ h => h.elim) (fun _ _ _ h => h)
  cases op with
  | construct al a src => exact hctor _ _ _ ho.2 hn
  | make a src => exact hctor _ _ _ ho.2 hn
  | destroy => cases hn
  | drop => cases hn
  | assign a b =>
    obtain ⟨x, hx⟩ := hm.present ho.1
    obtain ⟨y, hy⟩ := hm.present ho.2
    have h1 : (E.traits T.ty).moveAssignable = true ∧ (E.traits T.ty).nothrowMoveAssign = false := by
      cases h1 : (E.traits T.ty).moveAssignable <;> cases h2 : (E.traits T.ty).nothrowMoveAssign <;> simp_all [HOp.quiet, HOp.noexcept]
    show Runs (moveAssign E T a b) s w _ _
    simp only [moveAssign, h1.1, if_true, value, runs_bind, runs_get, hx, hy, runs_some, Env.runs_userOp]
    exact ⟨fun hb => (by rw [h1.2] at hb; cases hb), fun _ => ⟨fun _ => trivial, fun hx => by rw [hf] at hx; cases hx⟩⟩
  | equal a b =>
    obtain ⟨x, hx⟩ := hm.present ho.1
    obtain ⟨y, hy⟩ := hm.present ho.2
    simp only [HOp.run, Holder.equal, value, runs_bind, runs_get, runs_ite, runs_raise, runs_pure, hx, hy, runs_some, Env.runs_userOp]
    refine ⟨fun hc => ⟨fun hb => ?_, fun _ => ⟨fun _ => trivial, fun hx => by rw [hf] at hx; cases hx⟩⟩, fun _ => trivial⟩
    have hn : ((E.traits T.ty).eqComparable && (E.traits T.ty).nothrowEq) = false := hn
    rw [hc, hb] at hn
    cases hn

/-- **C71**, exception specifications: no operation is without `noexcept` needlessly; one that is not
declared `noexcept` does throw if the next operation of the type that can throw does (with allocators like `std::allocator`). -/
theorem C71_throwing (hacc : (E.traits T.ty).acceptable = true) (hc : PlainCons E T) {P : HOp V → Prop} {s : Store V} {alive : Nat → Bool} {w : World}
    (h : Client E T P s alive w) (op : HOp V) (ho : op.Ok alive) (hn : op.noexcept (E.traits T.ty) = false) (hf : E.fault w.tick = true) :
    Runs (op.run E T) s w (fun _ _ _ => False) (fun _ _ _ => True) :=
  quiet_throws hacc h op ho ((hc.quiet op).trans hn) hf

/-- **C71**, exception specifications, refuted for allocators that do more than call the move constructor, like
`std::scoped_allocator_adaptor`: the constructor of `value_holder` from a `T&&` or from another holder is declared `noexcept`
if T's move constructor is, but an exception thrown by the allocator's `construct` leaves it.  The program is terminated.  The same
for copies. -/
theorem C71_terminates (hacc : (E.traits T.ty).acceptable = true) {P : HOp V → Prop} {s : Store V} {alive : Nat → Bool} {w : World}
    (h : Client E T P s alive w) {a : Nat} (ha : alive a = false) (al : Alloc) (src : Source V) (hs : src.Ok alive)
    (hn : src.noexcept (E.traits T.ty) = true) (hf : E.fault w.tick = true)
    (hc : match src with
      | .copy _ | .copyHolder _ => T.consCopy = false
      | .move _ | .moveHolder _ => T.consMove = false
      | .emplace _ => False) :
    (HOp.construct al a src).noexcept (E.traits T.ty) = true ∧
    Runs ((HOp.construct al a src).run E T) s w (fun _ _ _ => False) (fun _ _ _ => True) := by
  refine ⟨hn, quiet_throws hacc h _ ⟨ha, hs⟩ ?_ hf⟩
  cases src with
  | copy v => simp only [HOp.quiet, Source.quiet, quietCopy, Option.isSome_some, if_true, hc, Bool.and_false]
  | copyHolder b => simp only [HOp.quiet, Source.quiet, quietCopy, Option.isSome_some, if_true, hc, Bool.and_false]
  | move v => exact hc
  | moveHolder b => exact hc
  | emplace v => exact hc.elim

/-- **C71**, comparison: `operator==` of two holders is that of the objects, in that order, if there is
one; else `not_equality_comparable` is thrown, with the type. -/
theorem C71_equal (hacc : (E.traits T.ty).acceptable = true) {P : HOp V → Prop} {s : Store V} {alive : Nat → Bool} {w : World}
    (h : Client E T P s alive w) {a b : Nat} (ha : alive a = true) (hb : alive b = true) :
    ∃ x y, s.obj a = some x ∧ s.obj b = some y ∧
      Runs (Holder.equal E T a b) s w (fun r s' _ => s' = s ∧ (E.traits T.ty).eqComparable = true ∧ r = E.eqv x y)
        (fun e s' _ => s' = s ∧ (e = .notEqualityComparable T.ty ∧ (E.traits T.ty).eqComparable = false ∨
          e = .user ∧ (E.traits T.ty).eqComparable = true ∧ (E.traits T.ty).nothrowEq = false ∧ ∃ i, E.fault i = true)) := by
  have hm := client_matches hacc h
  obtain ⟨x, hx⟩ := hm.present ha
  obtain ⟨y, hy⟩ := hm.present hb
  refine ⟨x, y, hx, hy, ?_⟩
  simp only [Holder.equal, value, runs_bind, runs_get, runs_ite, runs_raise, runs_pure, hx, hy, runs_some, Env.runs_userOp]
  exact ⟨fun hc => ⟨fun _ => ⟨trivial, hc, trivial⟩, fun hn => ⟨fun hf => ⟨trivial, Or.inr ⟨trivial, hc, hn, _, hf⟩⟩, fun _ => ⟨trivial, hc, trivial⟩⟩⟩,
    fun hc => ⟨trivial, Or.inl ⟨trivial, Bool.eq_false_iff.2 hc⟩⟩⟩

/-- The operation goes through the allocator: `construct`, `destroy`, assignment and comparison. -/
def UsesAllocator : HOp V → Prop
  | .make _ _ | .drop _ => False
  | _ => True

/-- **C71**, allocators: if the type is move assignable and the client constructs and destroys its
holders by way of the allocator_adaptor, as containers have to, then all objects are constructed and
destroyed by way of the user's allocator.  Missing: types that are not move assignable, where this is
wrong (`C71_emulated_assignment`). -/
theorem C71_allocator_partial (hm : (E.traits T.ty).moveAssignable = true) {s : Store V} {alive : Nat → Bool} {w : World}
    (h : Client E T UsesAllocator s alive w) : ∀ e ∈ s.log, e.via.isSome = true := by
  have hacc : (E.traits T.ty).acceptable = true := by simp [Traits.acceptable, hm]
  induction h with
  | start w => simp
  | ok h op hp ho hr ih =>
    rw [(runs_ok (op_runs hacc (client_matches hacc h) _ op ho) hr).2.2]
    intro e he
    rcases List.mem_append.1 he with he | he
    · cases op with
      | construct al a src => simp only [HOp.events, List.mem_singleton] at he; subst he; rfl
      | destroy al a => simp only [HOp.events, List.mem_singleton] at he; subst he; rfl
      | make a src => exact hp.elim
      | drop a => exact hp.elim
      | assign a b => simp [HOp.events, hm] at he
      | equal a b => simp [HOp.events] at he
    · exact ih e he
  | exc h op hp ho hr ih => rw [(runs_exc (op_runs hacc (client_matches hacc h) _ op ho) hr).1]; exact ih

/-- An outcome without the state. -/
def _root_.PolyColl.Out.bare {X α : Type} : Out X α → Out Unit Unit
  | .ok _ _ w => .ok () () w
  | .exc e _ w => .exc e () w
  | .ub => .ub

theorem new_bare {s : Store V} (w : World) (via : Option Alloc) {a : Nat} (ha : s.obj a = none) (b : Bool) (v : V) :
    ((do E.userOp b; create via a v : Prog (Store V) Unit) s w).bare = E.userOp b () w := by
  show (Prog.bind _ _ s w).bare = _
  simp only [Prog.bind, Env.userOp, create]
  cases b <;> cases E.fault w.tick <;>
    simp [Out.bare, Prog.bind, Bind.bind, Prog.get, Prog.set, ha]

theorem copy_bare (hp : PlainCons E T) {s : Store V} (w : World) (via : Option Alloc) {a : Nat} (ha : s.obj a = none) (v : V) :
    (copy E T via a v s w).bare = E.copyVH T.ty () w := by
  unfold copy Env.copyVH
  split
  · rw [← hp.quietCopy via]
    exact new_bare w via ha _ v
  · rfl

/-- **C71** and the model of vectors: the operations on elements that `Vec.lean` assumes succeed, fail
and count as those of `value_holder` do, if the allocator's `construct` is like that of `std::allocator`. -/
theorem C71_model (hacc : (E.traits T.ty).acceptable = true) (hp : PlainCons E T) {P : HOp V → Prop} {s : Store V} {alive : Nat → Bool} {w : World}
    (h : Client E T P s alive w) (via : Option Alloc) (a b : Nat) (v : V) :
    (alive a = false → alive b = true →
      ((ctor E T via a (.copyHolder b)) s w).bare = E.copyVH T.ty () w ∧ ((ctor E T via a (.moveHolder b)) s w).bare = E.moveVH T.ty () w) ∧
    (alive a = false →
      ((ctor E T via a (.copy v)) s w).bare = E.copyVH T.ty () w ∧ ((ctor E T via a (.move v)) s w).bare = E.moveVH T.ty () w ∧
      ((ctor E T via a (.emplace v)) s w).bare = E.userOp false () w) ∧
    (alive a = true → alive b = true → ∀ x y, s.obj a = some x → s.obj b = some y →
      (a ≠ b → (assign E T a b s w).bare = E.userOp (E.traits T.ty).nothrowAssign () w) ∧
      (equal E T a b s w).bare = (E.eqVH T.ty x y () w).bare) := by
  have hm := client_matches hacc h
  refine ⟨fun ha hb => ?_, fun ha => ?_, fun ha hb x y hx hy => ⟨fun hne => ?_, ?_⟩⟩
  · have hn := hm.absent ha
    obtain ⟨y, hy⟩ := hm.present hb
    constructor
    · have : ctor E T via a (.copyHolder b) s w = copy E T via a y s w := by
        show Prog.bind _ _ s w = _
        simp only [Prog.bind, value, Bind.bind, Prog.get, hy, Prog.ofOption, Prog.pure]
      rw [this, copy_bare hp w via hn]
    · have e := new_bare (E := E) w via hn (quietMove E T via) y
      rw [Env.moveVH, ← hp.quietMove via, ← e]
      show (Prog.bind _ _ s w).bare = _
      simp only [Prog.bind, value, Bind.bind, Prog.get, hy, Prog.ofOption, Prog.pure, newMove, Holder.put, Prog.set]
      cases E.userOp (Holder.quietMove E T via) s w with
      | ok _ s' w' =>
        simp only
        cases create via a y s' w' <;> rfl
      | exc e s' w' => rfl
      | ub => rfl
  · have hn := hm.absent ha
    exact ⟨copy_bare hp w via hn v, by rw [Env.moveVH, ← hp.quietMove via]; exact new_bare w via hn _ v, new_bare w via hn _ v⟩
  · show (Holder.moveAssign E T a b s w).bare = _
    unfold moveAssign Traits.nothrowAssign
    cases hma : (E.traits T.ty).moveAssignable with
    | true =>
      simp only [if_true, if_neg hne]
      show (Prog.bind _ _ s w).bare = _
      simp only [Prog.bind, value, Bind.bind, Prog.get, hx, hy, Prog.ofOption, Prog.pure, Env.userOp, Holder.put, Prog.set]
      cases (E.traits T.ty).nothrowMoveAssign <;> cases E.fault w.tick <;> rfl
    | false =>
      have hnt : (E.traits T.ty).nothrowMove = true := by simpa [Traits.acceptable, hma] using hacc
      simp only [Bool.false_eq_true, if_false, ne_eq, hne, not_false_eq_true, if_true]
      show (Prog.bind _ _ s w).bare = _
      simp [Prog.bind, value, Bind.bind, Prog.get, hx, hy, Prog.ofOption, Prog.pure, Env.userOp, Holder.put, Prog.set, Holder.destroy,
        newMove, Holder.quietMove, create, hnt, Out.bare]
  · show (Prog.bind _ _ s w).bare = _
    simp only [Prog.bind, value, Bind.bind, Prog.get, hx, hy, Prog.ofOption, Prog.pure, Env.eqVH]
    split
    · simp only [Prog.bind, Env.userOp]
      cases (E.traits T.ty).nothrowEq <;> cases E.fault w.tick <;> rfl
    · rfl

/-! ### Examples -/

/-- All types are like lambdas: not assignable, but move constructors do not throw. -/
def lambdas : Env Nat := { Sample.E0 with traits := fun _ => ⟨true, false, true, false, false, false, false⟩ }

/-- Moved-from objects have value 0. -/
def sampleElem : Elem Nat := ⟨2, fun _ => 0, id, false, (Sample.E0.traits 2).nothrowMove⟩

/-- Two objects are constructed, the second is move assigned to the first, and is destroyed: the way a
vector erases its first element. -/
theorem eraseFirst (E : Env Nat) (h : E = lambdas ∨ E = Sample.E0) : ∃ s alive w', Client E sampleElem UsesAllocator s alive w' ∧
    s.obj 0 = some 20 ∧ alive 0 = true ∧ alive 1 = false ∧
    s.log = .destroy (some 3) 1 :: (HOp.assign 0 1).events E sampleElem ++ [.construct (some 3) 1, .construct (some 3) 0] := by
  have h1 := Client.start (E := E) (T := sampleElem) (P := UsesAllocator) ⟨1, 0⟩
  rcases h with rfl | rfl
  all_goals
    have h2 := h1.ok (.construct 3 0 (.emplace 10)) trivial ⟨rfl, trivial⟩ rfl
    have h3 := h2.ok (.construct 3 1 (.emplace 20)) trivial ⟨rfl, trivial⟩ rfl
    have h4 := h3.ok (.assign 0 1) trivial ⟨rfl, rfl⟩ rfl
    have h5 := h4.ok (.destroy 3 1) trivial rfl rfl
    exact ⟨_, _, _, h5, rfl, rfl, rfl, rfl⟩

/-- Both sorts of types are acceptable; type 2 of the usual environment is move assignable, with
operations that may throw. -/
example : (lambdas.traits sampleElem.ty).acceptable = true ∧ (Sample.E0.traits sampleElem.ty).acceptable = true ∧
    (Sample.E0.traits sampleElem.ty).moveAssignable = true ∧
    (HOp.assign 0 1 : HOp Nat).noexcept (Sample.E0.traits sampleElem.ty) = false ∧
    (HOp.assign 0 1 : HOp Nat).noexcept (lambdas.traits sampleElem.ty) = true ∧
    (∃ s alive w, Client lambdas sampleElem UsesAllocator s alive w ∧ alive 0 = true ∧ alive 1 = false) ∧
    ∃ s alive w, Client Sample.E0 sampleElem UsesAllocator s alive w ∧ alive 0 = true ∧ alive 1 = false := by
  obtain ⟨s, alive, w, h, -, h1, h2, -⟩ := eraseFirst lambdas (Or.inl rfl)
  obtain ⟨s', alive', w', h', -, h1', h2', -⟩ := eraseFirst Sample.E0 (Or.inr rfl)
  exact ⟨rfl, rfl, rfl, rfl, rfl, ⟨s, alive, w, h, h1, h2⟩, s', alive', w', h', h1', h2'⟩

/-- The third operation that can throw does: two objects of type 2 are constructed, their comparison throws. -/
example : ∃ s alive w, Client (Sample.env fun i => i == 2) sampleElem UsesAllocator s alive w ∧ (HOp.equal 0 1 : HOp Nat).Ok alive ∧
    (HOp.equal 0 1 : HOp Nat).noexcept ((Sample.env fun i => i == 2).traits sampleElem.ty) = false ∧ (Sample.env fun i => i == 2).fault w.tick = true := by
  have h1 := Client.start (E := Sample.env fun i => i == 2) (T := sampleElem) (P := UsesAllocator) ⟨1, 0⟩
  have h2 := h1.ok (.construct 3 0 (.emplace 10)) trivial ⟨rfl, trivial⟩ rfl
  have h3 := h2.ok (.construct 3 1 (.emplace 20)) trivial ⟨rfl, trivial⟩ rfl
  exact ⟨_, _, _, h3, ⟨rfl, rfl⟩, rfl, rfl⟩

/-- The sample type is used with an allocator like `std::allocator`. -/
example : PlainCons Sample.E0 sampleElem ∧ TameCons Sample.E0 sampleElem := ⟨⟨rfl, rfl⟩, ⟨fun h => absurd h (by decide), fun h => h⟩⟩

/-- With an allocator that can throw when it moves, the second element is constructed by moving an object: the operation is declared `noexcept` and throws. -/
example :
    let E : Env Nat := { lambdas with fault := fun i => i == 1 }
    let T : Elem Nat := { sampleElem with consMove := false }
    ∃ s alive w, Client E T UsesAllocator s alive w ∧ alive 0 = true ∧ alive 1 = false ∧ (HOp.construct 3 1 (.move 20)).noexcept (E.traits T.ty) = true ∧
      ∃ s' w', (HOp.construct 3 1 (.move 20)).run E T s w = .exc .user s' w' := by
  intro E T
  have h1 := Client.start (E := E) (T := T) (P := UsesAllocator) ⟨1, 0⟩
  have h2 := h1.ok (.construct 3 0 (.emplace 10)) trivial ⟨rfl, trivial⟩ rfl
  exact ⟨_, _, _, h2, rfl, rfl, rfl, _, _, rfl⟩

/-- **C71**, refuted for types that are not move assignable, like lambdas: the element at the front is
destroyed and another one constructed in its place without the allocator's `destroy` and `construct`,
although the documentation says that all subobjects are constructed and destroyed with them. -/
theorem C71_emulated_assignment : ∃ s alive w, Client lambdas sampleElem UsesAllocator s alive w ∧
    s.log = [.destroy (some 3) 1, .construct none 0, .destroy none 0, .construct (some 3) 1, .construct (some 3) 0] := by
  obtain ⟨s, alive, w, h, -, -, -, h'⟩ := eraseFirst lambdas (Or.inl rfl)
  exact ⟨s, alive, w, h, h'⟩

/-- Why the type has to be acceptable, which `value_holder` checks with a `static_assert`: if a type is
neither move assignable nor nothrow move constructible, a failed assignment leaves a holder without an
object. -/
theorem C71_not_acceptable :
    let E : Env Nat := { Sample.E0 with traits := fun _ => ⟨true, false, false, false, false, false, false⟩, fault := fun i => i == 2 }
    (E.traits sampleElem.ty).acceptable = false ∧
    ∃ s alive w, Client E sampleElem UsesAllocator s alive w ∧ alive 0 = true ∧ s.obj 0 = none := by
  intro E
  have h1 := Client.start (E := E) (T := sampleElem) (P := UsesAllocator) ⟨1, 0⟩
  have h2 := h1.ok (.construct 3 0 (.emplace 10)) trivial ⟨rfl, trivial⟩ rfl
  have h3 := h2.ok (.construct 3 1 (.emplace 20)) trivial ⟨rfl, trivial⟩ rfl
  have h4 := h3.exc (.assign 0 1) trivial ⟨rfl, rfl⟩ rfl
  exact ⟨rfl, _, _, _, h4, rfl, rfl⟩

end PolyColl.Props
