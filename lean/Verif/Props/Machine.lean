import Verif.Lemmas.Refine
import Verif.Lemmas.MachineDet
import Verif.Props.SampleData
import Verif.Props.SampleFail
/-!
# C65: a program behaves like the abstract machine

The machine (`Spec/Machine.lean`) knows types, positions and values: no segments, no iterators, no
memory, no hash table.  `Op.Means` says which request an operation stands for, given the positions its
iterators denote and the values its sources provide.
-/

namespace PolyColl.Props
open PolyColl Prog Coll Spec

variable {V : Type} {E : Env V} {k : Kind}

/-- Every documented use asks for something (`Op.Apt`: hints for types that are not registered yet included). -/
theorem C65_requests {s : Sys V} {op : Op V} (h : op.Apt E s) : ∃ r, op.Means E s r := run_means h

/-- **C65 (step).**  However a program got where it is: a documented use is defined; if it returns, the request has
been carried out; if it throws and is one of those that leave the collections usable, what the machine allows for a
failed request has happened.  Collections not concerned are unchanged. -/
theorem C65_step {sub : Ty → TI} (hsub : ∀ t, E.tiTy (sub t) = t) {l : List (Request V × Bool)} {s : Sys V} {w : World}
    (h : Uses E k sub l s w) {op : Op V} (hp : op.Pre E s) {r : Request V} (hm : op.Means E s r) :
    (∃ s' w', op.run E k sub s w = .ok () s' w' ∧ r.Does (fun i => (s i).abs) (fun i => (s' i).abs)) ∨
      ∃ e s' w', op.run E k sub s w = .exc e s' w' ∧ (op.Strong E k s → r.Fails (fun i => (s i).abs) (fun i => (s' i).abs)) := by
  have := run_refines hsub op s w (goodReach_inv E hsub (uses_good h)) hp r hm
  unfold Runs at this
  cases hr : op.run E k sub s w with
  | ok _ s' w' => rw [hr] at this; exact .inl ⟨s', w', rfl, this⟩
  | exc e s' w' => rw [hr] at this; exact .inr ⟨e, s', w', rfl, this⟩
  | ub => rw [hr] at this; exact this.elim

/-- **C65 (step with hints).**  The same if a hint might not survive the creation of a segment: if the use is defined. -/
theorem C65_step_hint {sub : Ty → TI} (hsub : ∀ t, E.tiTy (sub t) = t) {l : List (Request V × Bool)} {s : Sys V} {w : World}
    (h : Uses E k sub l s w) {op : Op V} (hp : op.Apt E s) {r : Request V} (hm : op.Means E s r) :
    (∀ x s' w', op.run E k sub s w = .ok x s' w' → r.Does (fun i => (s i).abs) (fun i => (s' i).abs)) ∧
      ∀ e s' w', op.run E k sub s w = .exc e s' w' → op.Strong E k s → r.Fails (fun i => (s i).abs) (fun i => (s' i).abs) :=
  have := run_refines_apt hsub op s w (goodReach_inv E hsub (uses_good h)) hp r hm
  ⟨fun _ _ _ hr => leaves_ok this hr, fun _ _ _ hr => leaves_exc this hr⟩

/-- **C65 (program).**  The contents of the collections of a program are what the machine may arrive at with the same
requests and outcomes. -/
theorem C65_program {sub : Ty → TI} (hsub : ∀ t, E.tiTy (sub t) = t) {l : List (Request V × Bool)} {s : Sys V} {w : World}
    (h : Uses E k sub l s w) : Trace l fun i => (s i).abs := uses_trace hsub h

/-- **C65 (independence).**  Two programs that make the same requests, all of which succeed and none of which depends on
the order of segments, end with the same types and the same elements in every collection: whatever the layout
(`base_collection` or `any_collection`), the allocators, the hash function, the growth policy and the capabilities of the
types. -/
theorem C65_independent {E' : Env V} {k' : Kind} {sub sub' : Ty → TI} (hsub : ∀ t, E.tiTy (sub t) = t) (hsub' : ∀ t, E'.tiTy (sub' t) = t)
    {l : List (Request V × Bool)} (hl : ∀ x ∈ l, x.2 = true ∧ x.1.OrderFree) {s s' : Sys V} {w w' : World}
    (h : Uses E k sub l s w) (h' : Uses E' k' sub' l s' w') (i : Nat) (t : Ty) :
    (t ∈ (s i).abs.types ↔ t ∈ (s' i).abs.types) ∧ (s i).abs.elemsOf t = (s' i).abs.elemsOf t :=
  have := Trace.alike hl (uses_trace hsub h) (uses_trace hsub' h') i
  ⟨this.types t, this.elems t⟩

/-! ### Examples -/

/-- A program whose collection 0 is now `c`. -/
def Uses0 (E : Env V) (k : Kind) (sub : Ty → TI) (l : List (Request V × Bool)) (c : Coll V) (w : World) : Prop :=
  ∃ s, Uses E k sub l s w ∧ s 0 = c

theorem Uses0.start (E : Env V) (k : Kind) (sub : Ty → TI) : Uses0 E k sub [] (Coll.empty' k 0) ⟨1, 0⟩ :=
  ⟨fun i => Coll.empty' k i, .start (fun i => i) _ (by decide), rfl⟩

theorem Uses0.ok {sub : Ty → TI} {l : List (Request V × Bool)} {c c' : Coll V} {w w' : World} (h : Uses0 E k sub l c w) (op : COp V)
    (ch : Change V) (hp : op.Pre E c) (hm : op.Means E c ch) (hr : op.run E c w = .ok () c' w') :
    Uses0 E k sub (l ++ [(.on 0 ch, true)]) c' w' := by
  obtain ⟨s, hs, rfl⟩ := h
  refine ⟨s.put 0 c', hs.ok (.on 0 op) (.on 0 ch) hp.apt ⟨ch, hm, rfl⟩ ?_, by simp [Sys.put]⟩
  simp only [Op.run, Sys.on, zoom, hr]

theorem Uses0.exc {sub : Ty → TI} {l : List (Request V × Bool)} {c c' : Coll V} {w w' : World} {e : Exc} (h : Uses0 E k sub l c w) (op : COp V)
    (ch : Change V) (hp : op.Pre E c) (hs' : op.Strong E c) (hm : op.Means E c ch) (hr : op.run E c w = .exc e c' w') :
    Uses0 E k sub (l ++ [(.on 0 ch, false)]) c' w' := by
  obtain ⟨s, hs, rfl⟩ := h
  refine ⟨s.put 0 c', hs.exc (e := e) (.on 0 op) (.on 0 ch) hp.apt hs' ⟨ch, hm, rfl⟩ ?_, by simp [Sys.put]⟩
  simp only [Op.run, Sys.on, zoom, hr]

/-- The requests of the examples. -/
def sampleRequests : List (Request Nat × Bool) :=
  [(.on 0 (.register [5]), true), (.on 0 (.insert 0 0 [1]), true), (.on 0 (.insert 0 1 [2]), true), (.on 0 (.insert 2 0 [7]), true)]

theorem uses_packed : Uses0 Sample.E0 .packed Sample.sub sampleRequests Sample.pc4 ⟨20, 21⟩ :=
  (((Uses0.start _ _ _).ok (.registerTypes [10]) _ trivial rfl Sample.pstep1
    |>.ok (.emplace 0 (.emplaced 1)) (.insert 0 0 [1]) ⟨1, .inl ⟨rfl, rfl⟩⟩ ⟨1, .inl ⟨rfl, rfl⟩, rfl⟩ Sample.pstep2)
    |>.ok (.emplace 1 (.copyExt 2)) (.insert 0 1 [2]) ⟨2, .inl ⟨rfl, rfl⟩⟩ ⟨2, .inl ⟨rfl, rfl⟩, rfl⟩ Sample.pstep3)
    |>.ok (.emplace 4 (.emplaced 7)) (.insert 2 0 [7]) ⟨7, .inl ⟨rfl, rfl⟩⟩ ⟨7, .inl ⟨rfl, rfl⟩, rfl⟩ Sample.pstep4

theorem uses_split : Uses0 Sample.E0 .split Sample.sub sampleRequests Sample.sc4 ⟨30, 31⟩ :=
  (((Uses0.start _ _ _).ok (.registerTypes [10]) _ trivial rfl Sample.sstep1
    |>.ok (.emplace 0 (.emplaced 1)) (.insert 0 0 [1]) ⟨1, .inl ⟨rfl, rfl⟩⟩ ⟨1, .inl ⟨rfl, rfl⟩, rfl⟩ Sample.sstep2)
    |>.ok (.emplace 1 (.copyExt 2)) (.insert 0 1 [2]) ⟨2, .inl ⟨rfl, rfl⟩⟩ ⟨2, .inl ⟨rfl, rfl⟩, rfl⟩ Sample.sstep3)
    |>.ok (.emplace 4 (.emplaced 7)) (.insert 2 0 [7]) ⟨7, .inl ⟨rfl, rfl⟩⟩ ⟨7, .inl ⟨rfl, rfl⟩, rfl⟩ Sample.sstep4

/-- The two layouts after the same requests, none of which depends on the order of segments. -/
example : (∃ s, Uses Sample.E0 .packed Sample.sub sampleRequests s ⟨20, 21⟩ ∧ (s 0).abs = [(2, [7]), (5, []), (0, [1, 2])]) ∧
    (∃ s, Uses Sample.E0 .split Sample.sub sampleRequests s ⟨30, 31⟩) ∧ ∀ x ∈ sampleRequests, x.2 = true ∧ x.1.OrderFree := by
  obtain ⟨s, h, e⟩ := uses_packed
  obtain ⟨s', h', -⟩ := uses_split
  refine ⟨⟨s, h, by rw [e]; rfl⟩, ⟨s', h'⟩, ?_⟩
  intro x hx
  simp only [sampleRequests, List.mem_cons, List.not_mem_nil, or_false] at hx
  rcases hx with rfl | rfl | rfl | rfl <;> exact ⟨rfl, trivial⟩

/-- A documented use that throws and leaves a usable collection: inserting a copy of something that cannot be copied. -/
example : ∃ (s : Sys Nat) (c' : Coll Nat) (w' : World), Uses Sample.E0 .packed Sample.sub sampleRequests s ⟨20, 21⟩ ∧
    (Op.on 0 (.insert ⟨2, 2, true, false, .copyExt 5⟩)).Pre Sample.E0 s ∧
    (Op.on 0 (.insert ⟨2, 2, true, false, .copyExt 5⟩)).Strong Sample.E0 .packed s ∧
    (Op.on 0 (.insert ⟨2, 2, true, false, .copyExt 5⟩)).Means Sample.E0 s (.on 0 (.insert 1 0 [5])) ∧
    (Op.on 0 (.insert ⟨2, 2, true, false, .copyExt 5⟩)).run Sample.E0 .packed Sample.sub s ⟨20, 21⟩ = .exc (.notCopyConstructible 1) (s.put 0 c') w' ∧
    c'.abs.types = [1, 0, 5, 2] := by
  obtain ⟨s, h, e⟩ := uses_packed
  have hr : ∃ c' w', COp.run Sample.E0 (.insert ⟨2, 2, true, false, .copyExt 5⟩) Sample.pc4 ⟨20, 21⟩ = .exc (.notCopyConstructible 1) c' w' ∧
      c'.abs.types = [1, 0, 5, 2] := ⟨_, _, rfl, rfl⟩
  obtain ⟨c', w', hr, ht⟩ := hr
  refine ⟨s, c', w', h, ⟨fun _ => rfl, 5, .inl ⟨rfl, rfl⟩⟩, .inl (by rw [e]; rfl), ⟨_, ⟨5, .inl ⟨rfl, rfl⟩, ?_⟩, rfl⟩, ?_, ht⟩
  · rw [e]; rfl
  · simp only [Op.run, Sys.on, zoom, e, hr]

/-- A hint for a type that is not registered yet, which survives: `emplace_hint` returns. -/
example : ∃ s : Sys Nat, Uses Sample.E5 .split Sample.sub [(.on 0 (.insert 0 0 [5]), true)] s ⟨10, 10⟩ ∧
    (Op.on 0 (.emplaceHint ⟨⟨some 4, 1⟩, ⟨none, 1⟩, ⟨9, 0⟩⟩ 4 (.emplaced 6))).Apt Sample.E5 s ∧
    (Op.on 0 (.emplaceHint ⟨⟨some 4, 1⟩, ⟨none, 1⟩, ⟨9, 0⟩⟩ 4 (.emplaced 6))).Means Sample.E5 s (.on 0 (.insert 2 0 [6])) ∧
    ∃ s' w', (Op.on 0 (.emplaceHint ⟨⟨some 4, 1⟩, ⟨none, 1⟩, ⟨9, 0⟩⟩ 4 (.emplaced 6))).run Sample.E5 .split Sample.sub s ⟨10, 10⟩ = .ok () s' w' := by
  obtain ⟨s, h, e⟩ := (Uses0.start Sample.E5 .split Sample.sub).ok (.emplace 0 (.emplaced 5)) (.insert 0 0 [5]) ⟨5, .inl ⟨rfl, rfl⟩⟩
    ⟨5, .inl ⟨rfl, rfl⟩, rfl⟩ Sample.w11step1
  have hat : Sample.w11c1.At Sample.E5 ⟨⟨some 4, 1⟩, ⟨none, 1⟩, ⟨9, 0⟩⟩ (some (0, 0)) := ⟨rfl, rfl, rfl, _, .head _, rfl, rfl, by decide, rfl⟩
  have hr : ∃ c' w', COp.run Sample.E5 (.emplaceHint ⟨⟨some 4, 1⟩, ⟨none, 1⟩, ⟨9, 0⟩⟩ 4 (.emplaced 6)) Sample.w11c1 ⟨10, 10⟩ = .ok () c' w' := ⟨_, _, rfl⟩
  obtain ⟨c', w', hr⟩ := hr
  refine ⟨s, h, ⟨⟨6, .inl ⟨rfl, rfl⟩⟩, _, e ▸ hat⟩, ⟨_, ⟨6, _, .inl ⟨rfl, rfl⟩, e ▸ hat, ?_⟩, rfl⟩, s.put 0 c', w', ?_⟩
  · rw [e]; rfl
  · simp only [Op.run, Sys.on, zoom, e, hr]

end PolyColl.Props
