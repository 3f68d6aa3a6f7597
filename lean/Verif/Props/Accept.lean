import Verif.Lemmas.Accept
/-!
# Types that are acceptable as documented can be stored (C88)
-/

namespace PolyColl.Props.Accept

open PolyColl.Accept PolyColl.Accept.Spec

/-! ## Sample types -/

namespace Sample

/-- A type like most: moved without exceptions, assignable. -/
def nice : Special := ⟨true, true, true, true⟩
/-- A lambda: not assignable. -/
def lambda : Special := ⟨true, true, false, true⟩

/-- `R operator()(Args...)const` -/
def constCall : Fun := { name := 0, pars := [.obj true] }
/-- `R operator()(Args...)`, as of a mutable lambda -/
def mutableCall : Fun := { name := 1, pars := [.obj false] }
/-- `R operator()(Args...)&&` -/
def rvalueCall : Fun := { name := 2, pars := [.rref false] }
/-- `R operator()(Args...)&` -/
def lvalueCall : Fun := { name := 3, pars := [.lref false] }
/-- `R operator()(Other)const`, for whose parameter the argument has to be converted -/
def otherCall : Fun := { name := 4, pars := [.obj true], ranks := some [2] }
/-- `R operator()(Arg)const` -/
def exactCall : Fun := { name := 5, pars := [.obj true], ranks := some [0] }

/-- `bool operator==(const T&,const T&)` -/
def constEq : Fun := { name := 0, pars := [.lref true, .lref true] }
/-- the same, `noexcept` -/
def constEqNoexcept : Fun := { name := 0, pars := [.lref true, .lref true], noexcept := true }
/-- `bool operator==(T&&,T&&)noexcept` -/
def rvalueEq : Fun := { name := 1, pars := [.rref false, .rref false], noexcept := true }
/-- `bool T::operator==(const T&)`, a member that is not const -/
def nonconstEq : Fun := { name := 2, pars := [.obj false, .lref true] }

/-- All results convert. -/
def anyResult : Nat → Bool := fun _ => true

/-- Classes 1 and 3 are derived from 0, 2 from 1; 4 is derived from 0 virtually, 5 privately; 6 has two
bases 0, one by way of 1 and one by way of 3. -/
def classes : Hier
  | 1 => [⟨0, false, true⟩]
  | 2 => [⟨1, false, true⟩]
  | 3 => [⟨0, false, true⟩]
  | 4 => [⟨0, true, true⟩]
  | 5 => [⟨0, false, false⟩]
  | 6 => [⟨1, false, true⟩, ⟨3, false, true⟩]
  | _ => []

theorem classes_wf : WellFormed classes where
  ordered := by
    intro c b hb
    unfold classes at hb
    split at hb
    all_goals first
      | exact absurd hb List.not_mem_nil
      | (revert b; decide)
  once := by
    intro c
    unfold classes
    split <;> decide

end Sample

/-! ## Overload resolution -/

/-- **C88 (calls).** What the model finds well-formed is what the language says: the function selected is
viable and better than all others. -/
theorem C88_calls (good : Nat → Bool) (fs : List Fun) (es : List Cat) :
    wellFormed good fs es = true ↔ Calls good fs es :=
  wellFormed_iff

/-- A call that selects the better one of two functions. -/
example : Calls Sample.anyResult [Sample.otherCall, Sample.exactCall] [.clv] :=
  (C88_calls _ _ _).1 (by decide)

/-- **C88 (elements are moved).** For a type with the documented properties `value_holder` can move
elements, provided the bodies of the functions that are declared compile; and only for such a type. -/
theorem C88_moves (s : Special) (hb : s.assignBody = true) :
    (acceptable true s = true ↔ Movable s) ∧ (holderMoves s = true ↔ Movable s) := by
  obtain ⟨a, b, c, d⟩ := s
  cases hb
  revert a b c
  unfold Movable
  decide

example : Movable Sample.lambda := ((C88_moves Sample.lambda rfl).1).1 (by decide)

/-! ## `function_collection` -/

/-- What is needed of callables, in general: they are called as lvalues; and as rvalues, const or not,
for nothing but `is_invocable_r`, if the standard library has it. -/
theorem C88_function_needs (std17 : Bool) (conv : Nat → Bool) (fs : List Fun) (s : Special)
    (hb : s.assignBody = true) :
    functionSegment std17 conv fs s = true ↔
      Movable s ∧ Calls conv fs [.lv] ∧
        (if std17 then Calls conv fs [.rv] ∧ Calls conv fs [.crv] else Calls conv fs [.clv]) := by
  unfold functionSegment iteratorTo wrapperFrom tableCalls isInvocableR
  rw [Bool.and_eq_true, Bool.and_eq_true, Bool.and_eq_true, (C88_moves s hb).2]
  cases std17 with
  | true =>
    simp only [if_pos, Bool.and_eq_true, wellFormed_iff, Bool.not_true, Bool.or_true, and_true]
    show ((Movable s ∧ Calls conv fs [.rv]) ∧ Calls conv fs [.lv]) ∧ Calls conv fs [.crv] ↔ _
    exact ⟨fun h => ⟨h.1.1.1, h.1.2, h.1.1.2, h.2⟩, fun h => ⟨⟨⟨h.1, h.2.2.1⟩, h.2.1⟩, h.2.2.2⟩⟩
  | false =>
    simp only [Bool.false_eq_true, if_false, Bool.and_eq_true, wellFormed_iff, Bool.not_true,
      Bool.or_true, and_true]
    show ((Movable s ∧ Calls conv fs [.lv]) ∧ Calls conv fs [.lv]) ∧ Calls conv fs [.clv] ↔ _
    exact ⟨fun h => ⟨h.1.1.1, h.1.2, h.2⟩, fun h => ⟨⟨⟨h.1, h.2.1⟩, h.2.1⟩, h.2.2⟩⟩

example : functionSegment true Sample.anyResult [Sample.constCall] Sample.lambda = true :=
  (C88_function_needs true _ _ _ rfl).2
    ⟨((C88_moves Sample.lambda rfl).1).1 (by decide), (C88_calls _ _ _).1 (by decide),
      (C88_calls _ _ _).1 (by decide), (C88_calls _ _ _).1 (by decide)⟩

/-- The addresses of callables that iterators of a `function_collection` give: never one by which an element could be changed
through a const iterator; apart from that, wherever `is_invocable_r` holds for callables that are const as the address
says. -/
theorem C88_function_addresses (std17 : Bool) (conv : Nat → Bool) (fs : List Fun) (itConst const : Bool) :
    iteratorTo std17 conv fs itConst const = true ↔
      (itConst = true → const = true) ∧ Calls conv fs [⟨std17, const⟩] := by
  unfold iteratorTo wrapperFrom isInvocableR
  rw [Bool.and_eq_true]
  cases std17 <;> cases itConst <;> cases const <;> simp [wellFormed_iff]

/-- From a const iterator `const T*` is obtained but not `T*`, even if both can be called. -/
example : iteratorTo true Sample.anyResult [Sample.constCall] true true = true ∧
    iteratorTo true Sample.anyResult [Sample.constCall] true false = false ∧
    iteratorTo true Sample.anyResult [Sample.constCall] false false = true :=
  ⟨(C88_function_addresses ..).2 ⟨fun _ => rfl, (C88_calls _ _ _).1 (by decide)⟩,
    Bool.eq_false_iff.2 fun h => absurd (((C88_function_addresses ..).1 h).1 rfl) (by decide),
    (C88_function_addresses ..).2 ⟨fun h => h, (C88_calls _ _ _).1 (by decide)⟩⟩

/-- **C88 for `function_collection`.** If `operator()` has no ref-qualifiers: the types that are documented
as acceptable are acceptable, and the segment for such a type can be instantiated if and only if const
objects of the type can be called, too.  Missing: callables for which this is not so, see
`C88_function_mutable`, and ref-qualifiers, see `C88_function_rvalue` and `C88_function_lvalue`. -/
theorem C88_function_partial (std17 : Bool) (conv : Nat → Bool) (fs : List Fun) (s : Special)
    (hb : s.assignBody = true) (hu : Unqualified fs) :
    (acceptable (functionImpl std17 conv fs) s = true ↔ DocCallable conv fs ∧ Movable s) ∧
    (DocCallable conv fs → Movable s →
      (functionSegment std17 conv fs s = true ↔ Calls conv fs [.clv])) := by
  have hlv : Calls conv fs [.rv] ↔ Calls conv fs [.lv] := unqualified_calls hu
  have hclv : Calls conv fs [.crv] ↔ Calls conv fs [.clv] := unqualified_calls hu
  constructor
  · have h1 : functionImpl std17 conv fs = true ↔ DocCallable conv fs := by
      unfold functionImpl isInvocableR DocCallable
      rw [hlv]
      cases std17 with
      | true => exact wellFormed_iff
      | false => exact wellFormed_iff
    have h2 := (C88_moves s hb).1
    rw [← h1, ← h2]
    unfold acceptable
    simp only [Bool.true_and, Bool.and_assoc, Bool.and_eq_true]
  · intro hd hm
    rw [C88_function_needs std17 conv fs s hb]
    cases std17 with
    | true =>
      simp only [if_pos]
      exact ⟨fun h => hclv.1 h.2.2.2, fun h => ⟨hm, hlv.1 hd, hd, hclv.2 h⟩⟩
    | false =>
      simp only [Bool.false_eq_true, if_false]
      exact ⟨fun h => h.2.2, fun h => ⟨hm, hlv.1 hd, h⟩⟩

/-- Lambdas can be stored. -/
example : functionSegment true Sample.anyResult [Sample.constCall] Sample.lambda = true := by
  have hu : Unqualified [Sample.constCall] := by
    intro f hf
    rw [List.mem_singleton] at hf
    exact ⟨true, hf ▸ rfl⟩
  exact ((C88_function_partial true Sample.anyResult _ Sample.lambda rfl hu).2
    ((C88_calls _ _ _).1 (by decide)) (((C88_moves Sample.lambda rfl).1).1 (by decide))).2
    ((C88_calls _ _ _).1 (by decide))

/-- **C88 fails for `function_collection`** if no `operator()` is const, as in a mutable lambda: such a type
is acceptable as documented, and `is_acceptable`, but the segment for it does not compile. The
conversion of const base iterators to `const T*` is there only if a `callable_wrapper` can be
constructed from a `const T&`. -/
theorem C88_function_mutable (std17 : Bool) (conv : Nat → Bool) (fs : List Fun) (s : Special)
    (hb : s.assignBody = true) (hm : Movable s) (hd : DocCallable conv fs)
    (hn : ∀ f ∈ fs, f.pars = [.obj false]) :
    acceptable (functionImpl std17 conv fs) s = true ∧ functionSegment std17 conv fs s = false := by
  have hu : Unqualified fs := fun f hf => ⟨false, hn f hf⟩
  have h := C88_function_partial std17 conv fs s hb hu
  refine ⟨h.1.2 ⟨hd, hm⟩, ?_⟩
  rw [← Bool.not_eq_true, h.2 hd hm]
  rintro ⟨f, ⟨hf, hv, -⟩, -⟩
  rw [← viable_iff, Fun.viable, hn f hf] at hv
  simp [bindsAll, Par.binds, Cat.clv] at hv

/-- A mutable lambda. -/
example : acceptable (functionImpl true Sample.anyResult [Sample.mutableCall]) Sample.lambda = true ∧
    functionSegment true Sample.anyResult [Sample.mutableCall] Sample.lambda = false :=
  C88_function_mutable true Sample.anyResult _ Sample.lambda rfl
    (((C88_moves Sample.lambda rfl).1).1 (by decide)) ((C88_calls _ _ _).1 (by decide)) (by decide)

/-- **C88 fails for `function_collection`** if every `operator()` has the ref-qualifier `&&`: such types are
acceptable as documented, but `is_acceptable` denies it. -/
theorem C88_function_rvalue (std17 : Bool) (conv : Nat → Bool) (fs : List Fun) (s : Special)
    (hn : ∀ f ∈ fs, ∃ k, f.pars = [.rref k]) :
    acceptable (functionImpl std17 conv fs) s = false := by
  have h : functionImpl std17 conv fs = false := by
    rw [← Bool.not_eq_true]
    intro h
    have h2 : Calls conv fs [.lv] := by
      unfold functionImpl isInvocableR at h
      cases std17 with
      | true => exact wellFormed_iff.1 h
      | false => exact wellFormed_iff.1 h
    obtain ⟨f, ⟨hf, hv, -⟩, -⟩ := h2
    obtain ⟨k, hk⟩ := hn f hf
    rw [← viable_iff, Fun.viable, hk] at hv
    simp [bindsAll, Par.binds, Cat.lv] at hv
  unfold acceptable
  simp [h]

/-- A callable that can be called once. -/
example : DocCallable Sample.anyResult [Sample.rvalueCall] ∧ Movable Sample.nice ∧
    acceptable (functionImpl true Sample.anyResult [Sample.rvalueCall]) Sample.nice = false :=
  ⟨(C88_calls _ _ _).1 (by decide), ((C88_moves Sample.nice rfl).1).1 (by decide),
    C88_function_rvalue true Sample.anyResult _ Sample.nice fun f hf =>
      ⟨false, by rw [List.mem_singleton] at hf; rw [hf]; rfl⟩⟩

/-- **C88 fails for `function_collection`** if every `operator()` has the ref-qualifier `&`, const or not, and
lvalues but no rvalues can be called: such types are not acceptable as documented, `is_acceptable`
says that they are, and the segment does not compile if the standard library has
`std::is_invocable_r`. -/
theorem C88_function_lvalue (conv : Nat → Bool) (fs : List Fun) (s : Special)
    (hb : s.assignBody = true) (hm : Movable s) (hl : Calls conv fs [.lv])
    (hd : ¬DocCallable conv fs) :
    acceptable (functionImpl true conv fs) s = true ∧ functionSegment true conv fs s = false := by
  constructor
  · have h1 : functionImpl true conv fs = true := wellFormed_iff.2 hl
    rw [h1]
    exact (C88_moves s hb).1.2 hm
  · rw [← Bool.not_eq_true, C88_function_needs true conv fs s hb]
    rintro ⟨-, -, h⟩
    exact hd h.1

example : acceptable (functionImpl true Sample.anyResult [Sample.lvalueCall]) Sample.nice = true ∧
    functionSegment true Sample.anyResult [Sample.lvalueCall] Sample.nice = false :=
  C88_function_lvalue Sample.anyResult _ Sample.nice rfl
    (((C88_moves Sample.nice rfl).1).1 (by decide)) ((C88_calls _ _ _).1 (by decide))
    (fun h => absurd ((C88_calls _ _ _).2 h) (by decide))

/-! ## `base_collection` -/

/-- **C88 for `base_collection`.** The types that are acceptable as documented are acceptable; and the
segment for such a type can be instantiated if and only if there is one way up from the type to the
base, by public bases that are not virtual.  Missing: types for which this is not so, see
`C88_base_virtual`, `C88_base_private` and `C88_base_ambiguous`. -/
theorem C88_base_partial {h : Hier} (hw : WellFormed h) (b d : Nat) (s : Special)
    (hb : s.assignBody = true) :
    (acceptable (isBaseOf h b d) s = true ↔ DocDerived h b d ∧ Movable s) ∧
    (Movable s → (baseSegment h b d s = true ↔ Plain h b d)) := by
  constructor
  · have h1 := isBaseOf_iff hw.ordered (b := b) (d := d)
    rw [← h1, ← (C88_moves s hb).1]
    unfold acceptable
    simp only [Bool.true_and, Bool.and_assoc, Bool.and_eq_true]
  · intro hm
    unfold baseSegment
    rw [Bool.and_eq_true, Bool.and_eq_true, downcast_iff hw]
    refine ⟨fun h => h.2, fun h => ⟨⟨(C88_moves s hb).2.2 hm, ?_⟩, h⟩⟩
    have := (downcast_iff hw).2 h
    unfold downcast at this
    rw [Bool.and_eq_true] at this
    exact this.1

/-- Objects of a class derived from a class derived from the base can be stored. -/
example : Plain Sample.classes 0 2 ∧ baseSegment Sample.classes 0 2 Sample.nice = true := by
  have h := C88_base_partial Sample.classes_wf 0 2 Sample.nice rfl
  have hm := ((C88_moves Sample.nice rfl).1).1 (by decide)
  have hs : baseSegment Sample.classes 0 2 Sample.nice = true := by decide
  exact ⟨(h.2 hm).1 hs, hs⟩

/-- **C88 fails for `base_collection`** if the base is reached by way of a virtual base: the segment does
not compile, since pointers to the base cannot be cast to pointers to the type. -/
theorem C88_base_virtual {h : Hier} (hw : WellFormed h) (b d : Nat) (s : Special)
    (hb : s.assignBody = true) (hm : Movable s) {p : List BaseSpec} (hp : Path h b d p)
    (hv : ∃ x ∈ p, x.virt = true) :
    acceptable (isBaseOf h b d) s = true ∧ baseSegment h b d s = false := by
  have hc := C88_base_partial hw b d s hb
  refine ⟨hc.1.2 ⟨⟨p, hp⟩, hm⟩, ?_⟩
  rw [← Bool.not_eq_true, hc.2 hm]
  rintro ⟨q, -, hu, hall⟩
  obtain ⟨x, hx, hxv⟩ := hv
  rw [hu p hp] at hx
  rw [(hall x hx).2] at hxv
  exact absurd hxv (by decide)

example : baseSegment Sample.classes 0 4 Sample.nice = false :=
  (C88_base_virtual Sample.classes_wf 0 4 Sample.nice rfl
    (((C88_moves Sample.nice rfl).1).1 (by decide))
    (.up (List.mem_singleton.2 rfl : (⟨0, true, true⟩ : BaseSpec) ∈ Sample.classes 4) .here)
    ⟨_, List.mem_singleton.2 rfl, rfl⟩).2

/-- **C88 fails for `base_collection`** if there is a private base on the way: the conversion is not
accessible. -/
theorem C88_base_private {h : Hier} (hw : WellFormed h) (b d : Nat) (s : Special)
    (hb : s.assignBody = true) (hm : Movable s) {p : List BaseSpec} (hp : Path h b d p)
    (hv : ∃ x ∈ p, x.pub = false) :
    acceptable (isBaseOf h b d) s = true ∧ baseSegment h b d s = false := by
  have hc := C88_base_partial hw b d s hb
  refine ⟨hc.1.2 ⟨⟨p, hp⟩, hm⟩, ?_⟩
  rw [← Bool.not_eq_true, hc.2 hm]
  rintro ⟨q, -, hu, hall⟩
  obtain ⟨x, hx, hxv⟩ := hv
  rw [hu p hp] at hx
  rw [(hall x hx).1] at hxv
  exact absurd hxv (by decide)

example : baseSegment Sample.classes 0 5 Sample.nice = false :=
  (C88_base_private Sample.classes_wf 0 5 Sample.nice rfl
    (((C88_moves Sample.nice rfl).1).1 (by decide))
    (.up (List.mem_singleton.2 rfl : (⟨0, false, false⟩ : BaseSpec) ∈ Sample.classes 5) .here)
    ⟨_, List.mem_singleton.2 rfl, rfl⟩).2

/-- **C88 fails for `base_collection`** if the type has the base more than once. -/
theorem C88_base_ambiguous {h : Hier} (hw : WellFormed h) (b d : Nat) (s : Special)
    (hb : s.assignBody = true) (hm : Movable s) {p q : List BaseSpec} (hp : Path h b d p)
    (hq : Path h b d q) (hne : p ≠ q) :
    acceptable (isBaseOf h b d) s = true ∧ baseSegment h b d s = false := by
  have hc := C88_base_partial hw b d s hb
  refine ⟨hc.1.2 ⟨⟨p, hp⟩, hm⟩, ?_⟩
  rw [← Bool.not_eq_true, hc.2 hm]
  rintro ⟨r, -, hu, -⟩
  exact hne ((hu p hp).trans (hu q hq).symm)

example : baseSegment Sample.classes 0 6 Sample.nice = false :=
  (C88_base_ambiguous Sample.classes_wf 0 6 Sample.nice rfl
    (((C88_moves Sample.nice rfl).1).1 (by decide))
    (.up (List.mem_cons_self : (⟨1, false, true⟩ : BaseSpec) ∈ Sample.classes 6)
      (.up (List.mem_singleton.2 rfl : (⟨0, false, true⟩ : BaseSpec) ∈ Sample.classes 1) .here))
    (.up (List.mem_cons_of_mem _ List.mem_cons_self : (⟨3, false, true⟩ : BaseSpec) ∈ Sample.classes 6)
      (.up (List.mem_singleton.2 rfl : (⟨0, false, true⟩ : BaseSpec) ∈ Sample.classes 3) .here))
    (by decide)).2

/-! ## `any_collection` -/

/-- What Boost.TypeErasure says of the move assignment of an `any`: it is declared, but it compiles only if
the concept has it (or is relaxed); moving may throw. -/
def AnyAssignment (t : AnyTy) (s : Special) : Prop :=
  if t.isAny then
    s.moveAssign = true ∧ s.nothrowMoveCtor = false ∧
      (s.assignBody = true ↔ t.relaxed = true ∨ t.assignable = true ∨ t.assignableRv = true)
  else s.assignBody = true

/-- **C88 for `any_collection`.** A type is acceptable if and only if `value_holder` can move its objects,
also if the type is an `any` itself. -/
theorem C88_any (t : AnyTy) (s : Special) (ha : AnyAssignment t s) :
    anyAcceptable t s = true ↔ holderMoves s = true := by
  obtain ⟨i, r, a, av⟩ := t
  obtain ⟨mc, nmc, ma, ab⟩ := s
  revert ha
  unfold AnyAssignment
  revert i r a av mc nmc ma ab
  decide

/-- An `any` without assignment. -/
example : anyAcceptable { isAny := true } ⟨true, false, true, false⟩ = false := by
  have h := C88_any { isAny := true } ⟨true, false, true, false⟩ (by unfold AnyAssignment; decide)
  rw [← Bool.not_eq_true, h]
  decide

/-- **C88 fails for the other collections**, as they do not have this specialisation: an `any` that can be
called but not assigned is acceptable to a `function_collection`, but its objects cannot be moved. -/
theorem C88_any_elsewhere (s : Special) (t : AnyTy) (ha : AnyAssignment t s) (hi : t.isAny = true)
    (hmc : s.moveCtor = true)
    (hn : t.relaxed = false ∧ t.assignable = false ∧ t.assignableRv = false)
    (std17 : Bool) (conv : Nat → Bool) (fs : List Fun) (hf : functionImpl std17 conv fs = true) :
    acceptable (functionImpl std17 conv fs) s = true ∧ functionSegment std17 conv fs s = false := by
  unfold AnyAssignment at ha
  rw [if_pos hi, hn.1, hn.2.1, hn.2.2] at ha
  obtain ⟨h1, -, h2⟩ := ha
  have hab : s.assignBody = false := by
    rw [← Bool.not_eq_true, h2]
    decide
  constructor
  · unfold acceptable
    simp [hf, hmc, h1]
  · unfold functionSegment holderMoves
    simp [h1, hab]

example : acceptable (functionImpl true Sample.anyResult [Sample.constCall]) ⟨true, false, true, false⟩
      = true ∧
    functionSegment true Sample.anyResult [Sample.constCall] ⟨true, false, true, false⟩ = false :=
  C88_any_elsewhere _ { isAny := true } (by unfold AnyAssignment; decide) rfl rfl ⟨rfl, rfl, rfl⟩ true
    Sample.anyResult _ (by decide)

/-! ## Comparison -/

/-- **C88 for comparisons.** If `operator==` takes its operands by value or by reference to const:
`operator==` of `value_holder` compiles; it calls the function that compares const elements, and is
declared `noexcept` if this function is; if there is none it throws. Missing: other operators, see
`C88_equal_nonconst` and `C88_equal_noexcept`. -/
theorem C88_equal_partial (conv : Nat → Bool) (fs : List Fun) (hc : ByConst fs) :
    (∀ f, Selected fs [.clv, .clv] f → f.deleted = false → conv f.name = true →
      holderEq conv fs = .calls f f.noexcept) ∧
    (¬Calls conv fs [.clv, .clv] → holderEq conv fs = .throws) := by
  have hcalls : ∀ e1 e2, Calls conv fs [e1, e2] ↔ Calls conv fs [.clv, .clv] :=
    fun e1 e2 => byConst_calls hc
  constructor
  · intro f hs hd hg
    have he : isEqComparable conv fs = true :=
      wellFormed_iff.2 ((hcalls _ _).2 ⟨f, hs, hd, hg⟩)
    have hr : resolve fs [.rv, .rv] = some f := resolve_complete ((byConst_selected hc).2 hs)
    have hn : isNothrowEqComparable conv fs = some f.noexcept := by
      unfold isNothrowEqComparable
      rw [if_pos he, hr]
      simp [hd]
    unfold holderEq
    rw [hn]
    simp only [he, if_pos, resolve_complete hs]
    simp [hd, hg]
  · intro hn
    have he : isEqComparable conv fs = false := by
      rw [← Bool.not_eq_true]
      intro h
      exact hn ((hcalls _ _).1 (wellFormed_iff.1 h))
    unfold holderEq isNothrowEqComparable
    simp [he]

example : holderEq Sample.anyResult [Sample.constEqNoexcept] = .calls Sample.constEqNoexcept true := by
  have hc : ByConst [Sample.constEqNoexcept] := by
    intro f hf
    rw [List.mem_singleton] at hf
    exact ⟨.lref true, .lref true, hf ▸ rfl, by decide, by decide⟩
  exact (C88_equal_partial Sample.anyResult _ hc).1 _ (resolve_iff.1 (by decide)) rfl rfl

/-- **C88 fails for comparisons** if const objects cannot be compared but others can, as with a member that
is not const: such a type is not EqualityComparable, and comparing collections with such elements
should throw (`reference.qbk` 58-66); but the segment does not compile. -/
theorem C88_equal_nonconst (conv : Nat → Bool) (fs : List Fun) (hl : Calls conv fs [.lv, .lv])
    (hn : ¬Calls conv fs [.clv, .clv]) : holderEq conv fs = .illFormed := by
  have he : isEqComparable conv fs = true := wellFormed_iff.2 hl
  unfold holderEq
  split
  · rfl
  · rw [if_pos he]
    cases hr : resolve fs [.clv, .clv] with
    | none => rfl
    | some f =>
      dsimp only
      split
      · next h =>
        simp only [Bool.and_eq_true, Bool.not_eq_true'] at h
        exact absurd ⟨f, resolve_sound hr, h.1, h.2⟩ hn
      · rfl

example : holderEq Sample.anyResult [Sample.nonconstEq] = .illFormed :=
  C88_equal_nonconst Sample.anyResult _ ((C88_calls _ _ _).1 (by decide))
    (fun h => absurd ((C88_calls _ _ _).2 h) (by decide))

/-- **C88 fails for comparisons** if another function compares rvalues: whether `operator==` of
`value_holder` is declared `noexcept` is up to the function for rvalues `f`, but the function for const
lvalues `g` is called.  If this one throws the program is terminated. -/
theorem C88_equal_noexcept (conv : Nat → Bool) (fs : List Fun) (hl : Calls conv fs [.lv, .lv])
    {f g : Fun} (hf : Selected fs [.rv, .rv] f) (hfd : f.deleted = false)
    (hg : Selected fs [.clv, .clv] g) (hgd : g.deleted = false) (hgc : conv g.name = true) :
    holderEq conv fs = .calls g f.noexcept := by
  have he : isEqComparable conv fs = true := wellFormed_iff.2 hl
  have hn : isNothrowEqComparable conv fs = some f.noexcept := by
    unfold isNothrowEqComparable
    rw [if_pos he, resolve_complete hf]
    simp [hfd]
  unfold holderEq
  rw [hn]
  simp only [he, if_pos, resolve_complete hg]
  simp [hgd, hgc]

/-- Elements are compared by a function that may throw, in a function declared `noexcept`. -/
example : holderEq Sample.anyResult [Sample.constEq, Sample.rvalueEq] = .calls Sample.constEq true ∧
    Sample.constEq.noexcept = false :=
  ⟨C88_equal_noexcept Sample.anyResult _ ((C88_calls _ _ _).1 (by decide))
    (f := Sample.rvalueEq) (resolve_iff.1 (by decide)) rfl (resolve_iff.1 (by decide)) rfl rfl, rfl⟩

end PolyColl.Props.Accept
