import Verif.Lemmas.Throws
import Verif.Props.Machine
/-!
# C66: exceptions have causes

`Env.Cause` (`Lemmas/Fair.lean`) is the part of the cause that lies outside of the collections: something was made to
fail while the operation ran, or a type lacks what the exception says it lacks.  `Op.Throws` (`Lemmas/Throws.lean`)
lists for every operation what it may throw, given the contents of the collections.
-/

namespace PolyColl.Props
open PolyColl Prog Coll Spec

variable {V : Type} {E : Env V} {k : Kind}

/-- **C66 (outside).**  Whatever the state of the collections, documented use or not: if an operation throws
`bad_alloc` or an exception of user code then an allocation or an operation of an element failed while it was running
(nothing left over from before, nothing invented); if it throws `not_copy_constructible` for a type, this type is not
copy constructible. -/
theorem C66_cause (E : Env V) (k : Kind) (sub : Ty → TI) (op : Op V) (s : Sys V) (w : World) {e : Exc} {s' : Sys V} {w' : World}
    (hr : op.run E k sub s w = .exc e s' w') : E.Cause w w' e := by
  have := (Op.run_fair E k sub op).run s w
  unfold Leaves at this
  rw [hr] at this
  exact this.2

/-- The same for comparisons: `not_equality_comparable` comes from a type that is not. -/
theorem C66_cause_equal (E : Env V) (x y : Coll V) (s : Sys V) (w : World) {e : Exc} {s' : Sys V} {w' : World}
    (hr : Coll.equal E x y s w = .exc e s' w' ∨ Coll.notEqual E x y s w = .exc e s' w') : E.Cause w w' e := by
  have h1 := (Coll.equal_fair (X := Sys V) E x y).run s w
  have h2 := (Coll.notEqual_fair (X := Sys V) E x y).run s w
  unfold Leaves at h1 h2
  rcases hr with hr | hr
  · rw [hr] at h1; exact h1.2
  · rw [hr] at h2; exact h2.2

/-- **C66 (inside).**  A documented use throws only what `Op.Throws` lists, and what it throws has a cause.  Insertions with
a hint may create segments (`Op.Apt`): if a rehash makes them undefined they do not throw. -/
theorem C66_throws {sub : Ty → TI} (hsub : ∀ t, E.tiTy (sub t) = t) {l : List (Request V × Bool)} {s : Sys V} {w : World}
    (h : Uses E k sub l s w) {op : Op V} (hp : op.Apt E s) {e : Exc} {s' : Sys V} {w' : World}
    (hr : op.run E k sub s w = .exc e s' w') : op.Throws E s e ∧ E.Cause w w' e :=
  ⟨leaves_exc (run_throws_apt hsub op s w (goodReach_inv E hsub (uses_good h)) hp) hr, C66_cause E k sub op s w hr⟩

/-- **C66 (unregistered).**  A documented use throws `unregistered_type` only for a type that is not registered in the
collection it is applied to. -/
theorem C66_unregistered {sub : Ty → TI} (hsub : ∀ t, E.tiTy (sub t) = t) {l : List (Request V × Bool)} {s : Sys V} {w : World}
    (h : Uses E k sub l s w) {i : Nat} {op : COp V} (hp : op.Apt E (s i)) {t : Ty} {s' : Sys V} {w' : World}
    (hr : (Op.on i op).run E k sub s w = .exc (.unregistered t) s' w') : t ∉ (s i).abs.types := by
  have hx : ∀ {u : Ty} {c l : Prop}, ¬ ExcFrom E u c l (.unregistered t) := by
    intro u c l h
    rcases h with ⟨h, -⟩ | ⟨h, -⟩ | ⟨h, -⟩ | ⟨h, -⟩ <;> cases h
  have hu : ∀ {u : Ty} {s : State V}, Unknown s u (.unregistered t) → t ∉ s.types := by
    rintro u s ⟨h, h'⟩
    cases h
    exact h'
  have ha : ∀ {s : State V} {a : Arg V} {m : Nat}, COp.ArgThrows E s a m (.unregistered t) → t ∉ s.types := by
    rintro s a m (h | h)
    · exact absurd h hx
    · exact hu h.1
  have := (C66_throws hsub h (op := .on i op) hp hr).1
  cases op with
  | registerTypes | reserveAll | shrinkAll | insertPosRangeBase => obtain ⟨_, -, h⟩ := this; exact absurd h hx
  | lookup | clearInfo => exact hu this
  | reserveInfo | shrinkInfo => exact this.elim hu fun h => absurd h hx
  | reserveT => exact this.elim (fun h => absurd h hx) fun h => absurd h hx
  | emplace | emplaceHint | emplacePosBase | emplacePosLocal | insertPosBase | insertPosLocal => exact absurd this hx
  | insert | insertHint => exact ha this
  | insertRange | insertHintRange => obtain ⟨_, -, h⟩ := this; exact ha h
  | insertRangeTerminal | insertHintRangeTerminal | insertPosRangeLocal => exact absurd this.2 hx
  | erase | eraseLocalBase | eraseLocal | eraseRange | eraseLocalRangeBase | eraseLocalRange | apply => cases this.1
  | clearAll | rebind => exact this.elim

/-- The operation keeps within the limits of sizes, names only types that are registered and needs no copies of what
cannot be copied: by itself it has no reason to throw. -/
def Within (E : Env V) (s : Sys V) (op : Op V) : Prop := ∀ e, op.Throws E s e → e = .badAlloc ∨ e = .user

/-- **C66 (success).**  If nothing is made to fail from now on, every documented use within the limits returns, and what
was asked for has been done. -/
theorem C66_returns {sub : Ty → TI} (hsub : ∀ t, E.tiTy (sub t) = t) {l : List (Request V × Bool)} {s : Sys V} {w : World}
    (h : Uses E k sub l s w) (hf : ∀ n, w.tick ≤ n → E.fault n = false)
    {op : Op V} (hp : op.Pre E s) (hw : Within E s op) {r : Request V} (hm : op.Means E s r) :
    ∃ s' w', op.run E k sub s w = .ok () s' w' ∧ r.Does (fun i => (s i).abs) (fun i => (s' i).abs) := by
  rcases C65_step hsub h hp hm with h' | ⟨e, s', w', hr, -⟩
  · exact h'
  obtain ⟨h1, h2⟩ := C66_throws hsub h hp.apt hr
  have no : ¬ E.FaultIn w w' := by
    rintro ⟨n, a, -, b⟩
    rw [hf n a] at b
    cases b
  rcases hw e h1 with rfl | rfl
  · exact absurd h2 no
  · exact absurd h2 no

/-- **C66 (success with hints).**  The same if a hint might not survive the creation of a segment: within the limits and
with nothing failing, the use does not throw; so it does what was asked for unless it is undefined (C06, C11 say when). -/
theorem C66_returns_hint {sub : Ty → TI} (hsub : ∀ t, E.tiTy (sub t) = t) {l : List (Request V × Bool)} {s : Sys V} {w : World}
    (h : Uses E k sub l s w) (hf : ∀ n, w.tick ≤ n → E.fault n = false)
    {op : Op V} (hp : op.Apt E s) (hw : Within E s op) {r : Request V} (hm : op.Means E s r) (hd : op.run E k sub s w ≠ .ub) :
    ∃ s' w', op.run E k sub s w = .ok () s' w' ∧ r.Does (fun i => (s i).abs) (fun i => (s' i).abs) := by
  cases hr : op.run E k sub s w with
  | ok _ s' w' => exact ⟨s', w', rfl, (C65_step_hint hsub h hp hm).1 _ _ _ hr⟩
  | exc e s' w' =>
    obtain ⟨h1, h2⟩ := C66_throws hsub h hp hr
    have no : ¬ E.FaultIn w w' := by
      rintro ⟨n, a, -, b⟩
      rw [hf n a] at b
      cases b
    rcases hw e h1 with rfl | rfl
    · exact absurd h2 no
    · exact absurd h2 no
  | ub => exact absurd hr hd

/-- **C66 (never).**  `clear()`, move construction, `swap` and the default constructor never throw; erasure throws nothing
if the registered types can be move-assigned without exceptions. -/
theorem C66_never {sub : Ty → TI} (hsub : ∀ t, E.tiTy (sub t) = t) {l : List (Request V × Bool)} {s : Sys V} {w : World}
    (h : Uses E k sub l s w) {op : Op V} (hp : op.Pre E s)
    (hop : (∃ i al, op = .create i al) ∨ (∃ i j, op = .move i j ∨ op = .swap i j) ∨ (∃ i, op = .on i .clearAll) ∨
      (∃ i, (∀ t ∈ (s i).abs.types, (E.traits t).nothrowAssign = true) ∧
        ((∃ p, op = .on i (.erase p)) ∨ (∃ p, op = .on i (.eraseLocalBase p) ∨ op = .on i (.eraseLocal p)) ∨ (∃ p q, op = .on i (.eraseRange p q)) ∨
          ∃ p q, op = .on i (.eraseLocalRangeBase p q) ∨ op = .on i (.eraseLocalRange p q))))
    {r : Request V} (hm : op.Means E s r) :
    ∃ s' w', op.run E k sub s w = .ok () s' w' ∧ r.Does (fun i => (s i).abs) (fun i => (s' i).abs) := by
  rcases C65_step hsub h hp hm with h' | ⟨e, s', w', hr, -⟩
  · exact h'
  have h1 := (C66_throws hsub h hp.apt hr).1
  exfalso
  rcases hop with ⟨i, al, rfl⟩ | ⟨i, j, rfl | rfl⟩ | ⟨i, rfl⟩ | ⟨i, ha, hop⟩
  · exact h1
  · exact h1
  · exact h1
  · exact h1
  · have : e = .user ∧ ∃ t ∈ (s i).abs.types, (E.traits t).nothrowAssign = false := by
      rcases hop with ⟨p, rfl⟩ | ⟨p, rfl | rfl⟩ | ⟨p, q, rfl⟩ | ⟨p, q, rfl | rfl⟩ <;> exact h1
    obtain ⟨-, t, ht, h2⟩ := this
    rw [ha t ht] at h2
    cases h2

/-! ### Examples -/

open Sample in
/-- A use within the limits: another element of a type that is there. -/
example : ∃ s : Sys Nat, Uses E0 .packed sub sampleRequests s ⟨20, 21⟩ ∧ (∀ n, 21 ≤ n → E0.fault n = false) ∧
    (Op.on 0 (.emplace 0 (.copyExt 9))).Pre E0 s ∧ Within E0 s (.on 0 (.emplace 0 (.copyExt 9))) ∧
    (Op.on 0 (.emplace 0 (.copyExt 9))).Means E0 s (.on 0 (.insert 0 2 [9])) := by
  obtain ⟨s, h, e⟩ := uses_packed
  refine ⟨s, h, fun _ _ => rfl, ⟨9, .inl ⟨rfl, rfl⟩⟩, ?_, ⟨_, ⟨9, .inl ⟨rfl, rfl⟩, ?_⟩, rfl⟩⟩
  · rintro e' (⟨rfl, -⟩ | ⟨rfl, -⟩ | ⟨rfl, h⟩ | ⟨rfl, h, -⟩)
    · exact .inl rfl
    · exact .inr rfl
    · rw [e] at h
      exact absurd h (by unfold Env.TooMany; decide)
    · exact absurd h (by decide)
  · rw [e]; rfl

open Sample in
/-- A use that throws, with its cause: type 1 cannot be copied, which `Op.Throws` announces. -/
example : ∃ (s s' : Sys Nat) (w' : World), Uses E0 .packed sub sampleRequests s ⟨20, 21⟩ ∧
    (Op.on 0 (.insert ⟨2, 2, true, false, .copyExt 5⟩)).Pre E0 s ∧
    (Op.on 0 (.insert ⟨2, 2, true, false, .copyExt 5⟩)).run E0 .packed sub s ⟨20, 21⟩ = .exc (.notCopyConstructible 1) s' w' ∧
    (E0.traits 1).copyable = false := by
  obtain ⟨s, h, e⟩ := uses_packed
  have hr : ∃ c' w', COp.run E0 (.insert ⟨2, 2, true, false, .copyExt 5⟩) pc4 ⟨20, 21⟩ = .exc (.notCopyConstructible 1) c' w' := ⟨_, _, rfl⟩
  obtain ⟨c', w', hr⟩ := hr
  refine ⟨s, s.put 0 c', w', h, ⟨fun _ => rfl, 5, .inl ⟨rfl, rfl⟩⟩, ?_, rfl⟩
  simp only [Op.run, Sys.on, zoom, e, hr]

open Sample in
/-- A use that throws `unregistered_type`. -/
example : ∃ (s s' : Sys Nat) (w' : World), Uses E0 .packed sub sampleRequests s ⟨20, 21⟩ ∧
    (Op.on 0 (.lookup 6)).Pre E0 s ∧ (Op.on 0 (.lookup 6)).run E0 .packed sub s ⟨20, 21⟩ = .exc (.unregistered 3) s' w' := by
  obtain ⟨s, h, e⟩ := uses_packed
  have hr : COp.run E0 (.lookup 6) pc4 ⟨20, 21⟩ = .exc (.unregistered 3) pc4 ⟨20, 21⟩ := rfl
  refine ⟨s, s.put 0 pc4, ⟨20, 21⟩, h, trivial, ?_⟩
  simp only [Op.run, Sys.on, zoom, e, hr]

open Sample in
/-- A use that never throws. -/
example : ∃ s : Sys Nat, Uses E0 .packed sub sampleRequests s ⟨20, 21⟩ ∧ (Op.on 0 (.clearAll)).Pre E0 s ∧
    (Op.on 0 (.clearAll)).Means E0 s (.on 0 .clear) := by
  obtain ⟨s, h, e⟩ := uses_packed
  exact ⟨s, h, trivial, _, rfl, rfl⟩

open Sample in
/-- A hint for a type that is not registered yet, within the limits and defined. -/
example : ∃ s : Sys Nat, Uses E5 .split sub [(.on 0 (.insert 0 0 [5]), true)] s ⟨10, 10⟩ ∧ (∀ n, 10 ≤ n → E5.fault n = false) ∧
    (Op.on 0 (.emplaceHint ⟨⟨some 4, 1⟩, ⟨none, 1⟩, ⟨9, 0⟩⟩ 4 (.emplaced 6))).Apt E5 s ∧
    ¬ (Op.on 0 (.emplaceHint ⟨⟨some 4, 1⟩, ⟨none, 1⟩, ⟨9, 0⟩⟩ 4 (.emplaced 6))).Pre E5 s ∧
    Within E5 s (.on 0 (.emplaceHint ⟨⟨some 4, 1⟩, ⟨none, 1⟩, ⟨9, 0⟩⟩ 4 (.emplaced 6))) ∧
    (Op.on 0 (.emplaceHint ⟨⟨some 4, 1⟩, ⟨none, 1⟩, ⟨9, 0⟩⟩ 4 (.emplaced 6))).run E5 .split sub s ⟨10, 10⟩ ≠ .ub := by
  obtain ⟨s, h, e⟩ := (Uses0.start E5 .split sub).ok (.emplace 0 (.emplaced 5)) (.insert 0 0 [5]) ⟨5, .inl ⟨rfl, rfl⟩⟩
    ⟨5, .inl ⟨rfl, rfl⟩, rfl⟩ w11step1
  have hat : w11c1.At E5 ⟨⟨some 4, 1⟩, ⟨none, 1⟩, ⟨9, 0⟩⟩ (some (0, 0)) := ⟨rfl, rfl, rfl, _, .head _, rfl, rfl, by decide, rfl⟩
  have hr : ∃ c' w', COp.run E5 (.emplaceHint ⟨⟨some 4, 1⟩, ⟨none, 1⟩, ⟨9, 0⟩⟩ 4 (.emplaced 6)) w11c1 ⟨10, 10⟩ = .ok () c' w' := ⟨_, _, rfl⟩
  obtain ⟨c', w', hr⟩ := hr
  refine ⟨s, h, fun _ _ => rfl, ⟨⟨6, .inl ⟨rfl, rfl⟩⟩, _, e ▸ hat⟩, ?_, ?_, ?_⟩
  · rintro ⟨-, -, h⟩
    rw [e] at h
    rcases h with h | h
    · cases h
    · exact absurd (h 2 (.head _)) (by decide)
  · rintro e' (⟨rfl, -⟩ | ⟨rfl, -⟩ | ⟨rfl, h⟩ | ⟨rfl, h, -⟩)
    · exact .inl rfl
    · exact .inr rfl
    · rw [e] at h
      exact absurd h (by unfold Env.TooMany; decide)
    · exact absurd h (by decide)
  · simp only [Op.run, Sys.on, zoom, e, hr]
    exact fun h => by cases h

open Sample in
/-- A hint for a type that is not registered yet and cannot be copied: `not_copy_constructible`. -/
example : ∃ (s s' : Sys Nat) (w' : World), Uses E5 .split sub [(.on 0 (.insert 0 0 [5]), true)] s ⟨10, 10⟩ ∧
    (Op.on 0 (.insertHint ⟨⟨some 4, 1⟩, ⟨none, 1⟩, ⟨9, 0⟩⟩ ⟨2, 2, true, false, .copyExt 5⟩)).Apt E5 s ∧
    (Op.on 0 (.insertHint ⟨⟨some 4, 1⟩, ⟨none, 1⟩, ⟨9, 0⟩⟩ ⟨2, 2, true, false, .copyExt 5⟩)).run E5 .split sub s ⟨10, 10⟩ =
      .exc (.notCopyConstructible 1) s' w' := by
  obtain ⟨s, h, e⟩ := (Uses0.start E5 .split sub).ok (.emplace 0 (.emplaced 5)) (.insert 0 0 [5]) ⟨5, .inl ⟨rfl, rfl⟩⟩
    ⟨5, .inl ⟨rfl, rfl⟩, rfl⟩ w11step1
  have hat : w11c1.At E5 ⟨⟨some 4, 1⟩, ⟨none, 1⟩, ⟨9, 0⟩⟩ (some (0, 0)) := ⟨rfl, rfl, rfl, _, .head _, rfl, rfl, by decide, rfl⟩
  have hr : ∃ c' w', COp.run E5 (.insertHint ⟨⟨some 4, 1⟩, ⟨none, 1⟩, ⟨9, 0⟩⟩ ⟨2, 2, true, false, .copyExt 5⟩) w11c1 ⟨10, 10⟩ =
      .exc (.notCopyConstructible 1) c' w' := ⟨_, _, rfl⟩
  obtain ⟨c', w', hr⟩ := hr
  refine ⟨s, s.put 0 c', w', h, ⟨fun _ => rfl, ⟨5, .inl ⟨rfl, rfl⟩⟩, _, e ▸ hat⟩, ?_⟩
  simp only [Op.run, Sys.on, zoom, e, hr]

end PolyColl.Props
