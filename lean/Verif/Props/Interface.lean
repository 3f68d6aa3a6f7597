import Verif.Model.Interface
/-!
# Which overload a call selects (C82), which conversions of iterators there are (C83)
-/

namespace PolyColl.Props.Interface

open PolyColl.Interface

/-! ## Specification -/

/-- Types of arguments: global iterators of the collection class, local base iterators, local
iterators for `t` (`true` for the const versions), and everything else. -/
inductive Arg
  | iter (k : Bool)
  | lbase (k : Bool)
  | lit (k : Bool) (t : Arg)
  | other (n : Nat)
  deriving DecidableEq

namespace Arg

/-- The C++ type. -/
def ty : Arg → Ty
  | iter k => .iter (.konst k)
  | lbase k => .loc (.base k)
  | lit false t => .loc (.ptr t.ty)
  | lit true t => .loc (.ptr (.cst t.ty))
  | other n => .obj n

/-- The type that iterators of this type refer to. -/
def refers (R : Traits) : Arg → Option Ty
  | iter _ => some R.value
  | lbase _ => some R.value
  | lit _ t => some t.ty
  | other n => R.points n

/-- Global iterator. -/
def isGlobal : Arg → Bool
  | iter _ => true
  | _ => false

/-- Local iterator. -/
def isLocal : Arg → Bool
  | lbase _ => true
  | lit _ _ => true
  | _ => false

end Arg

/-- The forms of `insert` of the documentation (`doc/reference.qbk` 531-620) by the types of the
arguments, and the function that each is.  `insert(i1,i2)` and `insert(it,i1,i2)` have one
implementation for iterators that refer to terminal types and one for others.  A call
`insert(it,x)` where `x` is an iterator itself is read as `insert(it1,it2)`, and likewise for local
iterators. -/
inductive Documented (R : Traits) : List Arg → Fn → Prop
  | insert (x : Arg) : R.impl x.ty → Documented R [x] .insertVal
  | hint (k : Bool) (x : Arg) : R.impl x.ty → x.isGlobal = false → Documented R [.iter k, x] .hintVal
  | position (l x : Arg) : l.isLocal → R.impl x.ty → x.isLocal = false →
      Documented R [l, x] .posVal
  | range (n : Nat) (v : Ty) : R.points n = some v → R.impl v →
      Documented R [.other n, .other n] (if R.terminal v then .rangeTerminal else .rangeMixed)
  | rangeIter (k : Bool) : Documented R [.iter k, .iter k] .rangeIter
  | rangeLocal (l : Arg) : l.isLocal → Documented R [l, l] .rangeLocal
  | hintRange (k : Bool) (n : Nat) (v : Ty) : R.points n = some v → R.impl v →
      Documented R [.iter k, .other n, .other n]
        (if R.terminal v then .hintRangeTerminal else .hintRangeMixed)
  | hintRangeIter (k k' : Bool) : Documented R [.iter k, .iter k', .iter k'] .hintRangeIter
  | hintRangeLocal (k : Bool) (l : Arg) : l.isLocal → Documented R [.iter k, l, l] .hintRangeLocal
  | posRange (k : Bool) (i : Arg) (v : Ty) : i.refers R = some v → R.impl v →
      Documented R [.lbase k, i, i] .posRange
  | localRange (k : Bool) (t j : Arg) :
      Documented R [.lit k t, j, j] (if k then .localRangeConst else .localRange)

/-! ## Resolution -/

namespace Arg

theorem ty_closed : ∀ a : Arg, a.ty.closed = true
  | iter _ => rfl
  | lbase _ => rfl
  | lit false t => by simpa [ty, Ty.closed] using t.ty_closed
  | lit true t => by simpa [ty, Ty.closed] using t.ty_closed
  | other _ => rfl

theorem ty_core : ∀ a : Arg, a.ty.core = a.ty
  | iter _ => rfl
  | lbase _ => rfl
  | lit false _ => rfl
  | lit true _ => rfl
  | other _ => rfl

theorem ty_not_const : ∀ a : Arg, a.ty.isConst = false
  | iter _ => rfl
  | lbase _ => rfl
  | lit false _ => rfl
  | lit true _ => rfl
  | other _ => rfl

theorem ty_ne_cst (a : Arg) (t : Ty) : a.ty ≠ .cst t := by
  intro h; have := a.ty_not_const; rw [h] at this; cases this

theorem ty_inj : ∀ {a b : Arg}, a.ty = b.ty → a = b := by
  intro a
  induction a with
  | iter k => intro b h; cases b with
    | lit k' _ => cases k' <;> simp [ty] at h
    | _ => simp_all [ty]
  | lbase k => intro b h; cases b with
    | lit k' _ => cases k' <;> simp [ty] at h
    | _ => simp_all [ty]
  | other k => intro b h; cases b with
    | lit k' _ => cases k' <;> simp [ty] at h
    | _ => simp_all [ty]
  | lit k t ih => intro b h; cases b with
    | lit k' t' =>
      cases k <;> cases k' <;> simp only [ty, Ty.loc.injEq, Ty.ptr.injEq, Ty.cst.injEq] at h
      · rw [ih h]
      · exact absurd h (ty_ne_cst _ _)
      · exact absurd h.symm (ty_ne_cst _ _)
      · rw [ih h]
    | _ => cases k <;> simp [ty] at h

end Arg

/-- Converts to `const_iterator`. -/
def hintOk (R : Traits) : Arg → Bool
  | .iter _ => true
  | .other n => R.converts n Ty.constIterator
  | _ => false

/-- Converts to `const_local_base_iterator`. -/
def baseOk (R : Traits) : Arg → Bool
  | .lbase _ => true
  | .other n => R.converts n Ty.constLocalBase
  | _ => false

/-- Iterators of this type refer to something with property `p`. -/
def refersTo (R : Traits) (p : Ty → Bool) (a : Arg) : Bool :=
  match a.refers R with | some v => p v | none => false

theorem deref_ty (R : Traits) (a : Arg) : R.deref a.ty = a.refers R := by
  cases a with
  | lit k t =>
    cases k
    · exact congrArg some t.ty_core
    · rfl
  | _ => rfl

theorem ty_beq (a b : Arg) : (a.ty == b.ty) = (a == b) := by
  by_cases h : a = b
  · subst h; simp
  · rw [beq_eq_false_iff_ne.mpr h, beq_eq_false_iff_ne.mpr fun e => h (Arg.ty_inj e)]

theorem derefsImpl_ty (R : Traits) (a : Arg) : R.derefsImpl a.ty = refersTo R R.impl a := by
  unfold Traits.derefsImpl refersTo; rw [deref_ty]; cases a.refers R <;> rfl

theorem derefsTerminal_ty (R : Traits) (a : Arg) :
    R.derefsTerminal a.ty = refersTo R R.terminal a := by
  unfold Traits.derefsTerminal refersTo; rw [deref_ty]; cases a.refers R <;> rfl

theorem derefsNotTerminal_ty (R : Traits) (a : Arg) :
    R.derefsNotTerminal a.ty = refersTo R (fun v => !R.terminal v) a := by
  unfold Traits.derefsNotTerminal refersTo; rw [deref_ty]; cases a.refers R <;> rfl

theorem bne_iter (b : Arg) (k : Bool) : (b.ty != .iter (.konst k)) = (b != .iter k) :=
  congrArg (!·) (ty_beq b (.iter k))

theorem match_hint (R : Traits) (a : Arg) (ps as : List Ty) (s : Sub) :
    matchArgs R (Ty.constIterator :: ps) (a.ty :: as) s =
      bif hintOk R a then (matchArgs R ps as s).map fun r => ((a != .iter true) :: r.1, r.2) else none := by
  cases a with
  | iter k =>
    cases k <;> simp [matchArgs, Ty.closed, Ty.constIterator, Arg.ty, Traits.implicit, hintOk]
    rfl
  | lbase k => simp [matchArgs, Ty.closed, Ty.constIterator, Arg.ty, Traits.implicit, hintOk]
  | lit k t => cases k <;> simp [matchArgs, Ty.closed, Ty.constIterator, Arg.ty, Traits.implicit, hintOk]
  | other n =>
    cases h : R.converts n (.iter (.konst true)) <;>
      simp [matchArgs, Ty.closed, Ty.constIterator, Arg.ty, Traits.implicit, hintOk, h]
    rfl

theorem match_base (R : Traits) (a : Arg) (ps as : List Ty) (s : Sub) :
    matchArgs R (Ty.constLocalBase :: ps) (a.ty :: as) s =
      bif baseOk R a then (matchArgs R ps as s).map fun r => ((a != .lbase true) :: r.1, r.2) else none := by
  cases a with
  | iter k => simp [matchArgs, Ty.closed, Ty.constLocalBase, Arg.ty, Traits.implicit, baseOk]
  | lbase k =>
    cases k <;> simp [matchArgs, Ty.closed, Ty.constLocalBase, Arg.ty, Traits.implicit,
      Traits.ctorImplicit, Traits.convBase, baseOk]
    rfl
  | lit k t => cases k <;> simp [matchArgs, Ty.closed, Ty.constLocalBase, Arg.ty, Traits.implicit,
      Traits.ctorImplicit, Traits.convBase, baseOk]
  | other n =>
    cases h : R.converts n (.loc (.base true)) <;>
      simp [matchArgs, Ty.closed, Ty.constLocalBase, Arg.ty, Traits.implicit, baseOk, h]
    rfl

/-- Two parameters of the same deduced type. -/
theorem match_pair (R : Traits) (n : Nat) (a b : Arg) (s : Sub) (h : s.lookup n = none) :
    matchArgs R [.var n, .var n] [a.ty, b.ty] s =
      bif a == b then some ([false, false], (n, a.ty) :: s) else none := by
  by_cases e : a = b
  · subst e; simp [matchArgs, Ty.closed, Ty.deduce, h]
  · have e' : ¬ a.ty = b.ty := fun x => e (Arg.ty_inj x)
    simp [matchArgs, Ty.closed, Ty.deduce, h, e', beq_eq_false_iff_ne.mpr e]

theorem match_iters (R : Traits) (n : Nat) (a b : Arg) (s : Sub) (h : s.lookup n = none) :
    (matchArgs R [.iter (.var n), .iter (.var n)] [a.ty, b.ty] s).map (·.1) =
      bif a == b && a.isGlobal then some [false, false] else none := by
  by_cases e : a = b
  · subst e
    rcases a with k | k | ⟨_ | _, t⟩ | n <;>
      simp [matchArgs, Ty.closed, Ty.deduce, Arg.ty, Arg.isGlobal, h]
  · have e' : ¬ a.ty = b.ty := fun x => e (Arg.ty_inj x)
    rw [beq_eq_false_iff_ne.mpr e]
    revert e'
    rcases a with k | k | ⟨_ | _, t⟩ | n <;> rcases b with k' | k' | ⟨_ | _, t'⟩ | n' <;>
      simp +contextual [matchArgs, Ty.closed, Ty.deduce, Arg.ty, h]

theorem match_locals (R : Traits) (n : Nat) (a b : Arg) (s : Sub) (h : s.lookup n = none) :
    (matchArgs R [.loc (.var n), .loc (.var n)] [a.ty, b.ty] s).map (·.1) =
      bif a == b && a.isLocal then some [false, false] else none := by
  by_cases e : a = b
  · subst e
    rcases a with k | k | ⟨_ | _, t⟩ | n <;>
      simp [matchArgs, Ty.closed, Ty.deduce, Arg.ty, Arg.isLocal, h]
  · have e' : ¬ a.ty = b.ty := fun x => e (Arg.ty_inj x)
    rw [beq_eq_false_iff_ne.mpr e]
    revert e'
    rcases a with k | k | ⟨_ | _, t⟩ | n <;> rcases b with k' | k' | ⟨_ | _, t'⟩ | n' <;>
      simp +contextual [matchArgs, Ty.closed, Ty.deduce, Arg.ty, h]

theorem v_hintVal (R : Traits) (a b : Arg) : hintVal.viable R [a.ty, b.ty] =
    bif hintOk R a && (b != .iter true && R.impl b.ty) then some [a != .iter true, false] else none := by
  unfold Cand.viable hintVal
  dsimp only
  rw [match_hint]
  cases hintOk R a
  · rfl
  · simp [matchArgs, Ty.closed, Ty.deduce, Sub.at, Ty.constIterator, bne_iter]

theorem v_posVal (R : Traits) (a b : Arg) : posVal.viable R [a.ty, b.ty] =
    bif a.isLocal && (b != a && R.impl b.ty) then some [false, false] else none := by
  have hb : (b.ty != a.ty) = (b != a) := congrArg (!·) (ty_beq b a)
  have e : ∀ x y : Bool, (if (x && y) = true then some [false, false] else none) =
      (bif x && y then some [false, false] else (none : Option (List Rank))) := by
    intro x y; cases x <;> cases y <;> rfl
  rcases a with k | k | ⟨_ | _, t⟩ | n
  · rfl
  all_goals first
    | rfl
    | (rw [← hb]; exact e _ _)

theorem v_rangeMixed (R : Traits) (a b : Arg) : rangeMixed.viable R [a.ty, b.ty] =
    bif a == b && (refersTo R R.impl a && refersTo R (fun v => !R.terminal v) a)
    then some [false, false] else none := by
  unfold Cand.viable rangeMixed
  dsimp only
  rw [match_pair _ _ _ _ _ rfl]
  cases a == b
  · rfl
  · simp [Sub.at, derefsImpl_ty, derefsNotTerminal_ty]

theorem v_rangeTerminal (R : Traits) (a b : Arg) : rangeTerminal.viable R [a.ty, b.ty] =
    bif a == b && (refersTo R R.impl a && refersTo R R.terminal a)
    then some [false, false] else none := by
  unfold Cand.viable rangeTerminal
  dsimp only
  rw [match_pair _ _ _ _ _ rfl]
  cases a == b
  · rfl
  · simp [Sub.at, derefsImpl_ty, derefsTerminal_ty]

/-- Without constraint. -/
theorem viable_free (R : Traits) (f : Cand) (h : f.guard = fun _ _ => true) (args : List Ty) :
    f.viable R args = (matchArgs R f.params args []).map (·.1) := by
  unfold Cand.viable
  rw [h]
  cases matchArgs R f.params args [] <;> rfl

theorem v_rangeIter (R : Traits) (a b : Arg) : rangeIter.viable R [a.ty, b.ty] =
    bif a == b && a.isGlobal then some [false, false] else none := by
  rw [viable_free _ _ rfl]; exact match_iters R 0 a b [] rfl

theorem v_rangeLocal (R : Traits) (a b : Arg) : rangeLocal.viable R [a.ty, b.ty] =
    bif a == b && a.isLocal then some [false, false] else none := by
  rw [viable_free _ _ rfl]; exact match_locals R 0 a b [] rfl

theorem v_hintRangeMixed (R : Traits) (a b c : Arg) :
    hintRangeMixed.viable R [a.ty, b.ty, c.ty] =
      bif hintOk R a && (b == c && (refersTo R R.impl b && refersTo R (fun v => !R.terminal v) b))
      then some [a != .iter true, false, false] else none := by
  unfold Cand.viable hintRangeMixed
  dsimp only
  rw [match_hint, match_pair _ _ _ _ _ rfl]
  cases hintOk R a
  · rfl
  cases b == c
  · rfl
  · simp [Sub.at, derefsImpl_ty, derefsNotTerminal_ty]

theorem v_hintRangeTerminal (R : Traits) (a b c : Arg) :
    hintRangeTerminal.viable R [a.ty, b.ty, c.ty] =
      bif hintOk R a && (b == c && (refersTo R R.impl b && refersTo R R.terminal b))
      then some [a != .iter true, false, false] else none := by
  unfold Cand.viable hintRangeTerminal
  dsimp only
  rw [match_hint, match_pair _ _ _ _ _ rfl]
  cases hintOk R a
  · rfl
  cases b == c
  · rfl
  · simp [Sub.at, derefsImpl_ty, derefsTerminal_ty]

theorem map_fst {o : Option (List Rank × Sub)} {x : Bool} {l : List Rank} (r : Rank)
    (h : o.map (·.1) = bif x then some l else none) :
    (o.map fun q => (r :: q.1, q.2)).map (·.1) = bif x then some (r :: l) else none := by
  cases o <;> cases x <;> simp_all

theorem v_hintRangeIter (R : Traits) (a b c : Arg) :
    hintRangeIter.viable R [a.ty, b.ty, c.ty] =
      bif hintOk R a && (b == c && b.isGlobal) then some [a != .iter true, false, false] else none := by
  rw [viable_free _ _ rfl]
  unfold hintRangeIter
  dsimp only
  rw [match_hint]
  cases hintOk R a
  · rfl
  · exact map_fst _ (match_iters R 0 b c [] rfl)

theorem v_hintRangeLocal (R : Traits) (a b c : Arg) :
    hintRangeLocal.viable R [a.ty, b.ty, c.ty] =
      bif hintOk R a && (b == c && b.isLocal) then some [a != .iter true, false, false] else none := by
  rw [viable_free _ _ rfl]
  unfold hintRangeLocal
  dsimp only
  rw [match_hint]
  cases hintOk R a
  · rfl
  · exact map_fst _ (match_locals R 0 b c [] rfl)

theorem v_posRange (R : Traits) (a b c : Arg) :
    posRange.viable R [a.ty, b.ty, c.ty] =
      bif baseOk R a && (b == c && refersTo R R.impl b)
      then some [a != .lbase true, false, false] else none := by
  unfold Cand.viable posRange
  dsimp only
  rw [match_base, match_pair _ _ _ _ _ rfl]
  cases baseOk R a
  · rfl
  cases b == c
  · rfl
  · simp [Sub.at, derefsImpl_ty]

/-- `const_local_iterator<T>` for some `T`. -/
def Arg.isConstLit : Arg → Bool
  | .lit true _ => true
  | _ => false

/-- `local_iterator<T>` or `const_local_iterator<T>` for some `T`. -/
def Arg.isLit : Arg → Bool
  | .lit _ _ => true
  | _ => false

theorem v_localRangeConst (R : Traits) (a b c : Arg) :
    localRangeConst.viable R [a.ty, b.ty, c.ty] =
      bif a.isConstLit && b == c then some [false, false, false] else none := by
  rw [viable_free _ _ rfl]
  unfold localRangeConst
  have e : ∀ s x, matchArgs R (Ty.constLocal (.var 0) :: [.var 1, .var 1]) [x, b.ty, c.ty] s =
      match (Ty.constLocal (.var 0)).deduce x s with
      | some s' => (matchArgs R [.var 1, .var 1] [b.ty, c.ty] s').map fun r => (false :: r.1, r.2)
      | none => none := fun _ _ => rfl
  dsimp only
  rw [e]
  rcases a with k | k | ⟨_ | _, t⟩ | n
  · rfl
  · rfl
  · simp only [Arg.ty, Ty.constLocal, Ty.deduce, Arg.isConstLit]
    rcases t with k | k | ⟨_ | _, t⟩ | n <;> rfl
  · simp only [Arg.ty, Ty.constLocal, Ty.deduce, List.lookup_nil, Arg.isConstLit]
    rw [match_pair _ _ _ _ _ rfl]
    cases b == c <;> rfl
  · rfl

theorem v_localRange (R : Traits) (a b c : Arg) :
    localRange.viable R [a.ty, b.ty, c.ty] =
      bif a.isLit && b == c then some [false, false, false] else none := by
  rw [viable_free _ _ rfl]
  unfold localRange
  have e : ∀ s x, matchArgs R (Ty.local' (.var 0) :: [.var 1, .var 1]) [x, b.ty, c.ty] s =
      match (Ty.local' (.var 0)).deduce x s with
      | some s' => (matchArgs R [.var 1, .var 1] [b.ty, c.ty] s').map fun r => (false :: r.1, r.2)
      | none => none := fun _ _ => rfl
  dsimp only
  rw [e]
  rcases a with k | k | ⟨_ | _, t⟩ | n
  · rfl
  · rfl
  · simp only [Arg.ty, Ty.local', Ty.deduce, List.lookup_nil, Arg.isLit]
    rw [match_pair _ _ _ _ _ rfl]
    cases b == c <;> rfl
  · simp only [Arg.ty, Ty.local', Ty.deduce, List.lookup_nil, Arg.isLit]
    rw [match_pair _ _ _ _ _ rfl]
    cases b == c <;> rfl
  · rfl

/-- The arguments are not as many as the parameters. -/
theorem match_length (R : Traits) : ∀ (ps as : List Ty) (s : Sub), ps.length ≠ as.length →
    matchArgs R ps as s = none
  | [], [], _, h => absurd rfl h
  | [], _ :: _, _, _ => rfl
  | _ :: _, [], _, _ => rfl
  | p :: ps, a :: as, s, h => by
    have h' : ps.length ≠ as.length := by simpa using h
    unfold matchArgs
    simp only [match_length R _ _ _ h']
    split
    · split
      · rfl
      · split <;> rfl
    · split <;> rfl

theorem viable_length (R : Traits) {f : Cand} {args : List Ty} (h : f.params.length ≠ args.length) :
    f.viable R args = none := by
  unfold Cand.viable
  rw [match_length _ _ _ _ h]

/-- Two arguments: what decides. -/
theorem resolve_two (R : Traits) (a b : Arg) :
    resolve R insertOverloads [a.ty, b.ty] = pick
      [(hintVal, bif hintOk R a && (b != .iter true && R.impl b.ty) then some [a != .iter true, false] else none),
       (posVal, bif a.isLocal && (b != a && R.impl b.ty) then some [false, false] else none),
       (rangeMixed, bif a == b && (refersTo R R.impl a && refersTo R (fun v => !R.terminal v) a)
          then some [false, false] else none),
       (rangeTerminal, bif a == b && (refersTo R R.impl a && refersTo R R.terminal a)
          then some [false, false] else none),
       (rangeIter, bif a == b && a.isGlobal then some [false, false] else none),
       (rangeLocal, bif a == b && a.isLocal then some [false, false] else none)] := by
  unfold resolve insertOverloads
  simp only [List.map_cons, List.map_nil, v_hintVal, v_posVal, v_rangeMixed, v_rangeTerminal,
    v_rangeIter, v_rangeLocal]
  rw [viable_length R (f := insertVal) (by intro h; cases h), viable_length R (f := hintRangeMixed) (by intro h; cases h),
    viable_length R (f := hintRangeTerminal) (by intro h; cases h),
    viable_length R (f := hintRangeIter) (by intro h; cases h),
    viable_length R (f := hintRangeLocal) (by intro h; cases h), viable_length R (f := posRange) (by intro h; cases h),
    viable_length R (f := localRangeConst) (by intro h; cases h), viable_length R (f := localRange) (by intro h; cases h)]
  simp only [pick, List.filterMap_cons, Option.map_none]

theorem resolve_three (R : Traits) (a b c : Arg) :
    resolve R insertOverloads [a.ty, b.ty, c.ty] = pick
      [(hintRangeMixed, bif hintOk R a && (b == c && (refersTo R R.impl b && refersTo R (fun v => !R.terminal v) b))
          then some [a != .iter true, false, false] else none),
       (hintRangeTerminal, bif hintOk R a && (b == c && (refersTo R R.impl b && refersTo R R.terminal b))
          then some [a != .iter true, false, false] else none),
       (hintRangeIter, bif hintOk R a && (b == c && b.isGlobal) then some [a != .iter true, false, false] else none),
       (hintRangeLocal, bif hintOk R a && (b == c && b.isLocal) then some [a != .iter true, false, false] else none),
       (posRange, bif baseOk R a && (b == c && refersTo R R.impl b)
          then some [a != .lbase true, false, false] else none),
       (localRangeConst, bif a.isConstLit && b == c then some [false, false, false] else none),
       (localRange, bif a.isLit && b == c then some [false, false, false] else none)] := by
  unfold resolve insertOverloads
  simp only [List.map_cons, List.map_nil, v_hintRangeMixed, v_hintRangeTerminal, v_hintRangeIter,
    v_hintRangeLocal, v_posRange, v_localRangeConst, v_localRange]
  rw [viable_length R (f := insertVal) (by intro h; cases h), viable_length R (f := hintVal) (by intro h; cases h),
    viable_length R (f := posVal) (by intro h; cases h), viable_length R (f := rangeMixed) (by intro h; cases h),
    viable_length R (f := rangeTerminal) (by intro h; cases h), viable_length R (f := rangeIter) (by intro h; cases h),
    viable_length R (f := rangeLocal) (by intro h; cases h)]
  simp only [pick, List.filterMap_cons, Option.map_none]

/-- The choice among the overloads for two arguments, as far as they can be viable at the same
time. -/
theorem pick_two {x1 y x2 x3 x4 x5 x6 : Bool} (h1 : (x1 && x2) = false)
    (h2 : (x2 && (x3 || x4 || x5 || x6)) = false) (h3 : (x3 && x4) = false)
    (h4 : (x5 && x6) = false) (h5 : (x1 && !y && (x3 || x4 || x5 || x6)) = false) :
    pick [(hintVal, bif x1 then some [y, false] else none),
       (posVal, bif x2 then some [false, false] else none),
       (rangeMixed, bif x3 then some [false, false] else none),
       (rangeTerminal, bif x4 then some [false, false] else none),
       (rangeIter, bif x5 then some [false, false] else none),
       (rangeLocal, bif x6 then some [false, false] else none)] =
    if x5 then .one .rangeIter
    else if x6 then .one .rangeLocal
    else if x3 then .one .rangeMixed
    else if x4 then .one .rangeTerminal
    else if x2 then .one .posVal
    else if x1 then .one .hintVal
    else .none := by
  cases x1 <;> cases x2 <;> cases x3 <;> cases x4 <;> cases x5 <;> cases x6 <;> cases y <;>
    first
    | rfl
    | exact absurd h1 (by decide)
    | exact absurd h2 (by decide)
    | exact absurd h3 (by decide)
    | exact absurd h4 (by decide)
    | exact absurd h5 (by decide)

/-- The same for three arguments. -/
theorem pick_three {x1 y x2 x3 x4 x5 z x6 x7 : Bool}
    (h1 : (x1 && x2) = false) (h2 : (x3 && x4) = false)
    (h3 : ((x1 || x2 || x3 || x4) && (x5 || x7)) = false) (h4 : (x5 && x7) = false)
    (h5 : (x6 && !x7) = false) :
    pick [(hintRangeMixed, bif x1 then some [y, false, false] else none),
       (hintRangeTerminal, bif x2 then some [y, false, false] else none),
       (hintRangeIter, bif x3 then some [y, false, false] else none),
       (hintRangeLocal, bif x4 then some [y, false, false] else none),
       (posRange, bif x5 then some [z, false, false] else none),
       (localRangeConst, bif x6 then some [false, false, false] else none),
       (localRange, bif x7 then some [false, false, false] else none)] =
    if x6 then .one .localRangeConst
    else if x7 then .one .localRange
    else if x5 then .one .posRange
    else if x3 then .one .hintRangeIter
    else if x4 then .one .hintRangeLocal
    else if x1 then .one .hintRangeMixed
    else if x2 then .one .hintRangeTerminal
    else .none := by
  cases x1 <;> cases x2 <;> cases x3 <;> cases x4 <;> cases x5 <;> cases x6 <;> cases x7 <;>
    first
    | exact absurd h1 (by decide)
    | exact absurd h2 (by decide)
    | exact absurd h3 (by decide)
    | exact absurd h4 (by decide)
    | exact absurd h5 (by decide)
    | (cases y <;> cases z <;> rfl)

/-- No type converts both to global and to local iterators. -/
def Traits.Single (R : Traits) : Prop :=
  ∀ n, (R.converts n Ty.constIterator && R.converts n Ty.constLocalBase) = false

theorem refersTo_and (R : Traits) (p q : Ty → Bool) (a : Arg) :
    (refersTo R p a && refersTo R q a) = refersTo R (fun v => p v && q v) a := by
  unfold refersTo; cases a.refers R <;> rfl

/-- What is chosen for two arguments. -/
theorem two (R : Traits) (a b : Arg) :
    resolve R insertOverloads [a.ty, b.ty] =
      if a == b && a.isGlobal then .one .rangeIter
      else if a == b && a.isLocal then .one .rangeLocal
      else if a == b && refersTo R (fun v => R.impl v && !R.terminal v) a then .one .rangeMixed
      else if a == b && refersTo R (fun v => R.impl v && R.terminal v) a then .one .rangeTerminal
      else if a.isLocal && (b != a && R.impl b.ty) then .one .posVal
      else if hintOk R a && (b != .iter true && R.impl b.ty) then .one .hintVal
      else .none := by
  rw [resolve_two]
  simp only [refersTo_and]
  apply pick_two
  · cases a <;> simp [hintOk, Arg.isLocal]
  · by_cases e : a = b
    · subst e; simp
    · rw [beq_eq_false_iff_ne.mpr e]; simp
  · unfold refersTo
    cases a.refers R with
    | none => simp
    | some v => simp; intros; assumption
  · cases a <;> simp [Arg.isLocal, Arg.isGlobal]
  · by_cases e : a = b
    · subst e
      by_cases e' : a = .iter true
      · subst e'; simp
      · have : (a != .iter true) = true := by simpa using e'
        simp [this]
    · rw [beq_eq_false_iff_ne.mpr e]; simp

/-- What is chosen for three arguments. -/
theorem three (R : Traits) (hR : Traits.Single R) (a b c : Arg) :
    resolve R insertOverloads [a.ty, b.ty, c.ty] =
      if a.isConstLit && b == c then .one .localRangeConst
      else if a.isLit && b == c then .one .localRange
      else if baseOk R a && (b == c && refersTo R R.impl b) then .one .posRange
      else if hintOk R a && (b == c && b.isGlobal) then .one .hintRangeIter
      else if hintOk R a && (b == c && b.isLocal) then .one .hintRangeLocal
      else if hintOk R a && (b == c && refersTo R (fun v => R.impl v && !R.terminal v) b)
        then .one .hintRangeMixed
      else if hintOk R a && (b == c && refersTo R (fun v => R.impl v && R.terminal v) b)
        then .one .hintRangeTerminal
      else .none := by
  rw [resolve_three]
  simp only [refersTo_and]
  apply pick_three
  · unfold refersTo
    cases b.refers R with
    | none => simp
    | some v => simp; intros; assumption
  · cases b <;> simp [Arg.isLocal, Arg.isGlobal]
  · cases a with
    | other n => 
      have := hR n
      simp only [Arg.isLit, hintOk, baseOk, Bool.false_and, Bool.or_false]
      cases h1 : R.converts n Ty.constIterator
      · simp
      · rw [h1] at this; simp only [Bool.true_and] at this; rw [this]; simp
    | _ => simp [hintOk, baseOk, Arg.isLit]
  · cases a <;> simp [baseOk, Arg.isLit]
  · rcases a with k | k | ⟨_ | _, t⟩ | n <;> simp [Arg.isConstLit, Arg.isLit]

/-- What is chosen for one argument. -/
theorem single (R : Traits) (a : Arg) :
    resolve R insertOverloads [a.ty] = if R.impl a.ty then .one .insertVal else .none := by
  unfold resolve insertOverloads
  simp only [List.map_cons, List.map_nil]
  rw [viable_length R (f := hintVal) (by intro h; cases h),
    viable_length R (f := posVal) (by intro h; cases h),
    viable_length R (f := rangeMixed) (by intro h; cases h),
    viable_length R (f := rangeTerminal) (by intro h; cases h),
    viable_length R (f := rangeIter) (by intro h; cases h),
    viable_length R (f := rangeLocal) (by intro h; cases h),
    viable_length R (f := hintRangeMixed) (by intro h; cases h),
    viable_length R (f := hintRangeTerminal) (by intro h; cases h),
    viable_length R (f := hintRangeIter) (by intro h; cases h),
    viable_length R (f := hintRangeLocal) (by intro h; cases h),
    viable_length R (f := posRange) (by intro h; cases h),
    viable_length R (f := localRangeConst) (by intro h; cases h),
    viable_length R (f := localRange) (by intro h; cases h)]
  have : insertVal.viable R [a.ty] = if R.impl a.ty then some [false] else none := rfl
  rw [this]
  cases R.impl a.ty <;> rfl

/-- Other numbers of arguments. -/
theorem others (R : Traits) (as : List Arg) (h : as.length = 0 ∨ 4 ≤ as.length) :
    resolve R insertOverloads (as.map Arg.ty) = .none := by
  have key : ∀ f ∈ insertOverloads, f.params.length ≠ (as.map Arg.ty).length := by
    intro f hf e
    rw [List.length_map] at e
    have : 1 ≤ f.params.length ∧ f.params.length ≤ 3 := by
      simp only [insertOverloads, List.mem_cons, List.not_mem_nil, or_false] at hf
      rcases hf with h | h | h | h | h | h | h | h | h | h | h | h | h | h <;> subst h <;> decide
    omega
  have : insertOverloads.map (fun f => (f, f.viable R (as.map Arg.ty))) =
      insertOverloads.map fun f => (f, none) :=
    List.map_congr_left fun f hf => by rw [viable_length R (key f hf)]
  unfold resolve
  rw [this]
  rfl

theorem refersTo_some1 {R : Traits} {p : Ty → Bool} {a : Arg} (h : refersTo R p a = true) :
    ∃ v, a.refers R = some v ∧ p v = true := by
  unfold refersTo at h
  cases hv : a.refers R with
  | none => rw [hv] at h; cases h
  | some v => rw [hv] at h; exact ⟨v, rfl, h⟩

theorem refersTo_some {R : Traits} {p q : Ty → Bool} {a : Arg}
    (h : refersTo R (fun v => p v && q v) a = true) :
    ∃ v, a.refers R = some v ∧ p v = true ∧ q v = true := by
  obtain ⟨v, hv, h⟩ := refersTo_some1 h
  rw [Bool.and_eq_true] at h
  exact ⟨v, hv, h.1, h.2⟩

/-! ## Theorems -/

/-- Every documented form of `insert` selects its function, whatever the types. -/
theorem C82_documented (R : Traits) (hR : Traits.Single R) {args : List Arg} {f : Fn}
    (h : Documented R args f) : resolve R insertOverloads (args.map Arg.ty) = .one f := by
  cases h with
  | insert x hx => exact (single R x).trans (by rw [hx]; rfl)
  | hint k x hx hg =>
    refine (two R _ _).trans ?_
    have e : (Arg.iter k == x) = false := by cases x <;> first | rfl | cases hg
    have e' : (x != .iter true) = true := by cases x <;> first | rfl | cases hg
    simp [e, e', hx, hintOk, Arg.isLocal]
  | position l x hl hx hg =>
    refine (two R _ _).trans ?_
    have e : ¬ x = l := fun h => by subst h; rw [hl] at hg; cases hg
    have e2 : (l == x) = false := beq_eq_false_iff_ne.mpr fun h => e h.symm
    have e' : (x != l) = true := by simpa using e
    simp [e2, e', hx, hl]
  | range n v hv hi =>
    refine (two R _ _).trans ?_
    have : refersTo R (fun v => R.impl v && !R.terminal v) (.other n) = !R.terminal v := by
      simp [refersTo, Arg.refers, hv, hi]
    have : refersTo R (fun v => R.impl v && R.terminal v) (.other n) = R.terminal v := by
      simp [refersTo, Arg.refers, hv, hi]
    cases h : R.terminal v <;> simp_all [Arg.isGlobal, Arg.isLocal]
  | rangeIter k => refine (two R _ _).trans ?_; simp [Arg.isGlobal]
  | rangeLocal l hl =>
    refine (two R _ _).trans ?_
    cases l <;> simp_all [Arg.isGlobal, Arg.isLocal]
  | hintRange k n v hv hi =>
    refine (three R hR _ _ _).trans ?_
    have : refersTo R (fun v => R.impl v && !R.terminal v) (.other n) = !R.terminal v := by
      simp [refersTo, Arg.refers, hv, hi]
    have : refersTo R (fun v => R.impl v && R.terminal v) (.other n) = R.terminal v := by
      simp [refersTo, Arg.refers, hv, hi]
    cases h : R.terminal v <;>
      simp_all [Arg.isGlobal, Arg.isLocal, Arg.isConstLit, Arg.isLit, baseOk, hintOk]
  | hintRangeIter k k' =>
    refine (three R hR _ _ _).trans ?_
    simp [Arg.isGlobal, Arg.isConstLit, Arg.isLit, baseOk, hintOk]
  | hintRangeLocal k l hl =>
    refine (three R hR _ _ _).trans ?_
    cases l <;> simp_all [Arg.isGlobal, Arg.isLocal, Arg.isConstLit, Arg.isLit, baseOk, hintOk]
  | posRange k i v hv hi =>
    refine (three R hR _ _ _).trans ?_
    simp [Arg.isConstLit, Arg.isLit, baseOk, refersTo, hv, hi]
  | localRange k t j =>
    refine (three R hR _ _ _).trans ?_
    cases k <;> simp [Arg.isConstLit, Arg.isLit]

/-- A `base_collection`: `value_type` is `0`; `1` is derived from it and final, `2` is derived from
it; `3` and `4` are pointers to `1` and `0`. -/
def baseTraits : Traits where
  value := .obj 0
  impl t := t == .obj 0 || t == .obj 1 || t == .obj 2
  terminal t := t == .obj 1
  acceptable t := t == .obj 0 || t == .obj 1 || t == .obj 2
  points n := if n = 3 then some (.obj 1) else if n = 4 then some (.obj 0) else none
  converts _ _ := false
  up t u := t == u || (u == .obj 0 && (t == .obj 1 || t == .obj 2))
  casts t := t == .obj 0 || t == .obj 1 || t == .obj 2
  wraps t := t == .obj 0 || t == .obj 1 || t == .obj 2

/-- An `any_collection`: every type can be an element; all types but `value_type` are terminal. -/
def anyTraits : Traits where
  value := .obj 0
  impl _ := true
  terminal t := !(t == .obj 0)
  acceptable _ := true
  points n := if n = 3 then some (.obj 1) else if n = 4 then some (.obj 0) else none
  converts _ _ := false
  up t u := t == u
  casts _ := true
  wraps t := t == .obj 0

example : resolve baseTraits insertOverloads [(Arg.other 4).ty, (Arg.other 4).ty] = .one .rangeMixed :=
  C82_documented baseTraits (fun _ => rfl) (.range 4 (.obj 0) rfl rfl)

example : resolve anyTraits insertOverloads [(Arg.iter false).ty, (Arg.iter false).ty] =
    .one .rangeIter :=
  C82_documented anyTraits (fun _ => rfl) (.rangeIter false)

example : resolve anyTraits insertOverloads
    [(Arg.lit true (.other 1)).ty, (Arg.lbase false).ty, (Arg.lbase false).ty] =
    .one .localRangeConst :=
  C82_documented anyTraits (fun _ => rfl) (.localRange true (.other 1) (.lbase false))

/-- Calls of other forms that compile nevertheless: two iterators of different types, the second
of which can be an element, as every type can in an `any_collection`. -/
inductive Odd (R : Traits) : List Arg → Fn → Prop
  | hint : R.impl (Arg.iter false).ty → Odd R [.iter true, .iter false] .hintVal
  | position (l l' : Arg) : l.isLocal → l'.isLocal → l ≠ l' → R.impl l'.ty → Odd R [l, l'] .posVal

/-- No other types convert to iterators of the collection. -/
def Traits.Foreign (R : Traits) : Prop := ∀ n p, R.converts n p = false

theorem Traits.Foreign.single {R : Traits} (h : Traits.Foreign R) : Traits.Single R := fun n => by
  rw [h n]; rfl

/-- A call of `insert` compiles exactly if it is of a documented form, or of those in `Odd`. -/
theorem C82_exactly (R : Traits) (hR : Traits.Foreign R) (args : List Arg) (f : Fn) :
    resolve R insertOverloads (args.map Arg.ty) = .one f ↔ Documented R args f ∨ Odd R args f := by
  constructor
  · intro h
    match args with
    | [] => rw [others R [] (Or.inl rfl)] at h; cases h
    | [a] =>
      rw [show [a].map Arg.ty = [a.ty] from rfl, Interface.single] at h
      cases hi : R.impl a.ty <;> rw [hi] at h <;> simp at h
      subst h
      exact Or.inl (.insert a hi)
    | [a, b] =>
      rw [show [a, b].map Arg.ty = [a.ty, b.ty] from rfl, two] at h
      split at h
      · rename_i e
        simp only [Bool.and_eq_true, beq_iff_eq] at e
        obtain ⟨rfl, hg⟩ := e
        cases h
        cases a <;> first | exact Or.inl (.rangeIter _) | cases hg
      split at h
      · rename_i e
        simp only [Bool.and_eq_true, beq_iff_eq] at e
        obtain ⟨rfl, hg⟩ := e
        cases h
        exact Or.inl (.rangeLocal _ hg)
      split at h
      · rename_i n1 n2 e
        simp only [Bool.and_eq_true, beq_iff_eq] at e
        obtain ⟨rfl, hg⟩ := e
        cases h
        cases a with
        | iter => simp [Arg.isGlobal] at n1
        | lbase => simp [Arg.isLocal] at n2
        | lit => simp [Arg.isLocal] at n2
        | other n =>
          obtain ⟨v, hv, hi, ht⟩ := refersTo_some hg
          have := Documented.range (R := R) n v hv hi
          rw [if_neg (by simpa using ht)] at this
          exact Or.inl this
      split at h
      · rename_i n1 n2 _ e
        simp only [Bool.and_eq_true, beq_iff_eq] at e
        obtain ⟨rfl, hg⟩ := e
        cases h
        cases a with
        | iter => simp [Arg.isGlobal] at n1
        | lbase => simp [Arg.isLocal] at n2
        | lit => simp [Arg.isLocal] at n2
        | other n =>
          obtain ⟨v, hv, hi, ht⟩ := refersTo_some hg
          have := Documented.range (R := R) n v hv hi
          rw [if_pos (by simpa using ht)] at this
          exact Or.inl this
      split at h
      · rename_i e
        simp only [Bool.and_eq_true, bne_iff_ne, ne_eq] at e
        obtain ⟨hl, hne, hi⟩ := e
        cases h
        cases hb : b.isLocal
        · exact Or.inl (.position _ _ hl hi hb)
        · exact Or.inr (.position _ _ hl hb (fun e => hne e.symm) hi)
      split at h
      · rename_i n1 _ _ _ _ e
        simp only [Bool.and_eq_true, bne_iff_ne, ne_eq] at e
        obtain ⟨hl, hne, hi⟩ := e
        cases h
        cases a with
        | iter k =>
          cases b with
          | iter k' =>
            cases k' with
            | true => exact absurd rfl hne
            | false =>
              cases k with
              | true => exact Or.inr (.hint hi)
              | false => simp [Arg.isGlobal] at n1
          | lbase => exact Or.inl (.hint _ _ hi rfl)
          | lit => exact Or.inl (.hint _ _ hi rfl)
          | other => exact Or.inl (.hint _ _ hi rfl)
        | lbase => cases hl
        | lit => cases hl
        | other n => rw [hintOk, hR] at hl; cases hl
      · cases h
    | [a, b, c] =>
      rw [show [a, b, c].map Arg.ty = [a.ty, b.ty, c.ty] from rfl, three R hR.single] at h
      split at h
      · rename_i e
        simp only [Bool.and_eq_true, beq_iff_eq] at e
        obtain ⟨hg, rfl⟩ := e
        cases h
        rcases a with k | k | ⟨_ | _, t⟩ | n <;> first | exact Or.inl (.localRange true _ _) | cases hg
      split at h
      · rename_i n1 e
        simp only [Bool.and_eq_true, beq_iff_eq] at e
        obtain ⟨hg, rfl⟩ := e
        cases h
        rcases a with k | k | ⟨_ | _, t⟩ | n
        · cases hg
        · cases hg
        · exact Or.inl (.localRange false _ _)
        · simp [Arg.isConstLit] at n1
        · cases hg
      split at h
      · rename_i e
        simp only [Bool.and_eq_true, beq_iff_eq] at e
        obtain ⟨hg, rfl, hr⟩ := e
        cases h
        obtain ⟨v, hv, hi⟩ := refersTo_some1 hr
        cases a with
        | lbase k => exact Or.inl (.posRange k b v hv hi)
        | other n => rw [baseOk, hR] at hg; cases hg
        | iter => cases hg
        | lit => cases hg
      have hint : hintOk R a = true → ∃ k, a = .iter k := by
        intro hg
        cases a with
        | iter k => exact ⟨k, rfl⟩
        | other n => rw [hintOk, hR] at hg; cases hg
        | lbase => cases hg
        | lit => cases hg
      split at h
      · rename_i e
        simp only [Bool.and_eq_true, beq_iff_eq] at e
        obtain ⟨hg, rfl, hr⟩ := e
        obtain ⟨k, rfl⟩ := hint hg
        cases h
        cases b <;> first | exact Or.inl (.hintRangeIter _ _) | cases hr
      split at h
      · rename_i e
        simp only [Bool.and_eq_true, beq_iff_eq] at e
        obtain ⟨hg, rfl, hr⟩ := e
        obtain ⟨k, rfl⟩ := hint hg
        cases h
        exact Or.inl (.hintRangeLocal _ _ hr)
      split at h
      · rename_i n1 n2 e
        simp only [Bool.and_eq_true, beq_iff_eq] at e
        obtain ⟨hg, rfl, hr⟩ := e
        obtain ⟨k, rfl⟩ := hint hg
        cases h
        cases b with
        | iter => simp [Arg.isGlobal, hintOk] at n1
        | lbase => simp [Arg.isLocal, hintOk] at n2
        | lit => simp [Arg.isLocal, hintOk] at n2
        | other n =>
          obtain ⟨v, hv, hi, ht⟩ := refersTo_some hr
          have := Documented.hintRange (R := R) k n v hv hi
          rw [if_neg (by simpa using ht)] at this
          exact Or.inl this
      split at h
      · rename_i n1 n2 _ e
        simp only [Bool.and_eq_true, beq_iff_eq] at e
        obtain ⟨hg, rfl, hr⟩ := e
        obtain ⟨k, rfl⟩ := hint hg
        cases h
        cases b with
        | iter => simp [Arg.isGlobal, hintOk] at n1
        | lbase => simp [Arg.isLocal, hintOk] at n2
        | lit => simp [Arg.isLocal, hintOk] at n2
        | other n =>
          obtain ⟨v, hv, hi, ht⟩ := refersTo_some hr
          have := Documented.hintRange (R := R) k n v hv hi
          rw [if_pos (by simpa using ht)] at this
          exact Or.inl this
      · cases h
    | a :: b :: c :: d :: as =>
      rw [others R _ (Or.inr (by simp))] at h; cases h
  · rintro (h | h)
    · exact C82_documented R hR.single h
    · cases h with
      | hint hi => exact (two R _ _).trans (by simp [Arg.isGlobal, Arg.isLocal, hintOk, hi])
      | position l l' h1 h2 h3 hi =>
        have e : (l == l') = false := beq_eq_false_iff_ne.mpr h3
        have e' : (l' != l) = true := by simpa using fun h => h3 h.symm
        exact (two R _ _).trans (by simp [e, e', h1, hi])

/-- `c.insert(d.cbegin(),d.end())` compiles for an `any_collection`, and inserts the iterator. -/
example : resolve anyTraits insertOverloads [(Arg.iter true).ty, (Arg.iter false).ty] =
    .one .hintVal :=
  (C82_exactly anyTraits (fun _ _ => rfl) [.iter true, .iter false] .hintVal).2 (Or.inr (.hint rfl))

/-- Where the iterators of the collection cannot be its elements, as in a `base_collection` or a
`function_collection`, exactly the documented forms compile. -/
theorem C82_closed (R : Traits) (hR : Traits.Foreign R)
    (hi : ∀ a : Arg, (a.isGlobal || a.isLocal) = true → R.impl a.ty = false) (args : List Arg)
    (f : Fn) : resolve R insertOverloads (args.map Arg.ty) = .one f ↔ Documented R args f := by
  rw [C82_exactly R hR]
  refine ⟨?_, Or.inl⟩
  rintro (h | h)
  · exact h
  · cases h with
    | hint h => rw [hi (.iter false) rfl] at h; cases h
    | position l l' _ h2 _ h => rw [hi l' (by rw [h2]; simp)] at h; cases h

/-- It does not for a `base_collection`. -/
example (f : Fn) :
    resolve baseTraits insertOverloads [(Arg.iter true).ty, (Arg.iter false).ty] ≠ .one f := fun h => by
  have := (C82_closed baseTraits (fun _ _ => rfl) (fun a ha => by
    rcases a with k | k | ⟨_ | _, t⟩ | n <;> first | rfl | cases ha) [.iter true, .iter false] f).1 h
  cases this with
  | hint _ _ _ h => cases h
  | position _ _ h => cases h

/-- No call of `insert` is ambiguous. -/
theorem C82_unambiguous (R : Traits) (hR : Traits.Single R) (args : List Arg) :
    resolve R insertOverloads (args.map Arg.ty) ≠ .ambiguous := by
  match args with
  | [] => rw [others R [] (Or.inl rfl)]; simp
  | [a] =>
    rw [show [a].map Arg.ty = [a.ty] from rfl, Interface.single]
    split <;> simp
  | [a, b] =>
    rw [show [a, b].map Arg.ty = [a.ty, b.ty] from rfl, two]
    repeat' split
    all_goals simp
  | [a, b, c] =>
    rw [show [a, b, c].map Arg.ty = [a.ty, b.ty, c.ty] from rfl, three R hR]
    repeat' split
    all_goals simp
  | a :: b :: c :: d :: as => rw [others R _ (Or.inr (by simp))]; simp

example : resolve anyTraits insertOverloads [(Arg.iter true).ty, (Arg.iter true).ty] ≠ .ambiguous :=
  C82_unambiguous anyTraits (fun _ => rfl) [.iter true, .iter true]

/-- `emplace_pos<U>(lbit,args...)` and `emplace_pos(lit,args...)` select their functions. -/
theorem C82_emplace_pos (R : Traits) (u : Arg) (hu : R.acceptable u.ty = true) (t : Arg) :
    resolve R (emplacePosAs u.ty) [(Arg.lbase false).ty] = .one .emplacePosBase ∧
    resolve R (emplacePosAs u.ty) [(Arg.lbase true).ty] = .one .emplacePosConstBase ∧
    resolve R emplacePos [(Arg.lit false t).ty] = .one .emplacePosLocal ∧
    resolve R emplacePos [(Arg.lit true t).ty] = .one .emplacePosConstLocal := by
  have hc := u.ty_closed
  have e3 : ∀ k, Cand.viable R [(Arg.lbase k).ty]
      { fn := .emplacePosLocal, params := [(Ty.local' (.var 0)).inst 0 u.ty]
        order := [Ty.local' (.var 0)] } =
      bif R.convBase (.base k) (.ptr u.ty) then some [true] else none := by
    intro k
    simp only [Cand.viable, Ty.local', Ty.inst, if_true, matchArgs, Ty.closed, hc, Arg.ty,
      Traits.implicit, Traits.ctorImplicit]
    cases R.convBase (.base k) (.ptr u.ty) <;> rfl
  have e4 : ∀ k, Cand.viable R [(Arg.lbase k).ty]
      { fn := .emplacePosConstLocal, params := [(Ty.constLocal (.var 0)).inst 0 u.ty]
        order := [Ty.constLocal (.var 0)] } =
      bif R.convBase (.base k) (.ptr (.cst u.ty)) then some [true] else none := by
    intro k
    simp only [Cand.viable, Ty.constLocal, Ty.inst, if_true, matchArgs, Ty.closed, hc, Arg.ty,
      Traits.implicit, Traits.ctorImplicit]
    cases R.convBase (.base k) (.ptr (.cst u.ty)) <;> rfl
  have e1 : ∀ k, Cand.viable R [(Arg.lbase k).ty]
      { fn := .emplacePosBase, params := [Ty.localBase], guard := fun R _ => R.acceptable u.ty } =
      if k then none else some [false] := by
    intro k
    cases k <;> simp [Cand.viable, Ty.localBase, matchArgs, Ty.closed, Arg.ty, hu, Traits.implicit,
      Traits.ctorImplicit, Traits.convBase]
  have e2 : ∀ k, Cand.viable R [(Arg.lbase k).ty]
      { fn := .emplacePosConstBase, params := [Ty.constLocalBase]
        guard := fun R _ => R.acceptable u.ty } = some [!k] := by
    intro k
    cases k <;> simp [Cand.viable, Ty.constLocalBase, matchArgs, Ty.closed, Arg.ty, hu,
      Traits.implicit, Traits.ctorImplicit, Traits.convBase]
  refine ⟨?_, ?_, ?_, ?_⟩
  · unfold resolve emplacePosAs
    simp only [List.map_cons, List.map_nil, e1, e2, e3, e4]
    cases R.convBase (.base false) (.ptr u.ty) <;>
      cases R.convBase (.base false) (.ptr (.cst u.ty)) <;> rfl
  · unfold resolve emplacePosAs
    simp only [List.map_cons, List.map_nil, e1, e2, e3, e4]
    cases R.convBase (.base true) (.ptr u.ty) <;>
      cases R.convBase (.base true) (.ptr (.cst u.ty)) <;> rfl
  · rcases t with k | k | ⟨_ | _, t⟩ | n <;> rfl
  · rfl

example : resolve baseTraits (emplacePosAs (.obj 0)) [(Arg.lbase true).ty] =
    .one .emplacePosConstBase :=
  (C82_emplace_pos baseTraits (.other 0) rfl (.other 1)).2.1

/-- `erase` selects the function for the kind of iterator; global iterators may be mixed. -/
theorem C82_erase (R : Traits) (k k' : Bool) (l : Arg) (hl : l.isLocal = true) :
    resolve R eraseOverloads [(Arg.iter k).ty] = .one .eraseOne ∧
    resolve R eraseOverloads [(Arg.iter k).ty, (Arg.iter k').ty] = .one .eraseRange ∧
    resolve R eraseOverloads [l.ty] = .one .eraseLocal ∧
    resolve R eraseOverloads [l.ty, l.ty] = .one .eraseLocalRange := by
  refine ⟨?_, ?_, ?_, ?_⟩
  · cases k <;> rfl
  · cases k <;> cases k' <;> rfl
  · rcases l with k | k | ⟨_ | _, t⟩ | n <;> first | rfl | cases hl
  · have e1 : hintOk R l = false := by cases l <;> first | rfl | cases hl
    have e2 : Cand.viable R [l.ty, l.ty]
        { fn := .eraseRange, params := [Ty.constIterator, Ty.constIterator], template := false } =
        none := by
      rw [viable_free _ _ rfl, match_hint, e1]; rfl
    have e3 : Cand.viable R [l.ty, l.ty]
        { fn := .eraseLocalRange, params := [.loc (.var 0), .loc (.var 0)] } =
        some [false, false] := by
      rw [viable_free _ _ rfl]
      exact (match_locals R 0 l l [] rfl).trans (by simp [hl])
    unfold resolve eraseOverloads
    simp only [List.map_cons, List.map_nil]
    rw [e2, e3, viable_length R (by intro h; cases h), viable_length R (by intro h; cases h)]
    rfl

example : resolve anyTraits eraseOverloads
    [(Arg.lit true (.other 1)).ty, (Arg.lit true (.other 1)).ty] = .one .eraseLocalRange :=
  (C82_erase anyTraits true false (.lit true (.other 1)) rfl).2.2.2

/-- Exactly one of the internal overloads applies to an argument of any static type.  Segments are
made only of acceptable types; an argument is compared with its dynamic type unless its static type
is known to be the dynamic one, or, where there is nothing to compare with, that type is used.  What
does not compile is a terminal type that is not acceptable, and an element that neither is an
implementation nor constructs one. -/
theorem C82_dispatch (R : Traits) (t : Ty) (constr : Bool) :
    (∃ x, lookups R t = [x] ∧ (x = .checked ∨ x = .exact ↔ R.acceptable t = true) ∧
      (x = .exact ∨ x = .rejected ↔ R.terminal t = true)) ∧
    (∃ x, pushes R t = [x] ∧ (x = .virtual ↔ R.acceptable t = false) ∧
      (x = .exact ↔ R.acceptable t = true ∧ R.terminal t = true)) ∧
    (∃ x, localInserts R constr t = [x] ∧ (x = .insert ∨ x = .either ↔ R.impl t = true) ∧
      (x = .either ∨ x = .construct ↔ constr = true)) := by
  refine ⟨?_, ?_, ?_⟩
  · cases h1 : R.acceptable t <;> cases h2 : R.terminal t <;> simp [lookups, h1, h2]
  · cases h1 : R.acceptable t <;> cases h2 : R.terminal t <;> simp [pushes, h1, h2]
  · cases h1 : R.impl t <;> cases constr <;> simp [localInserts, h1]

example : lookups baseTraits (.obj 0) = [.checked] ∧ lookups baseTraits (.obj 1) = [.exact] ∧
    lookups baseTraits (.obj 3) = [.only] := ⟨rfl, rfl, rfl⟩

/-! ## Conversions of iterators (C83) -/

/-- The conversions of the documentation (`doc/reference.qbk` 173-212), for element types `u`: the
type converted, the result, and whether it is implicit. -/
inductive Converts : Arg → Arg → Bool → Prop
  | const : Converts (.iter false) (.iter true) true
  | constBase : Converts (.lbase false) (.lbase true) true
  | constLocal (u : Arg) : Converts (.lit false u) (.lit true u) true
  | toLocal (u : Arg) : Converts (.lbase false) (.lit false u) false
  | toConstLocal (u : Arg) : Converts (.lbase true) (.lit true u) false
  | toBase (u : Arg) : Converts (.lit false u) (.lbase false) false
  | toConstBase (u : Arg) : Converts (.lit true u) (.lbase true) false

/-- The type of elements that a local iterator is for, if it is not a base iterator. -/
def Arg.elem? : Arg → Option Arg
  | .lit _ u => some u
  | _ => none

/-- A local iterator, for an element type of the collection. -/
def Arg.LocalIn (R : Traits) (a : Arg) : Prop :=
  a.isLocal = true ∧ ∀ u, a.elem? = some u → R.casts u.ty = true

theorem core_cst (t : Ty) : (Ty.cst t).core = t := rfl
theorem isConst_cst (t : Ty) : (Ty.cst t).isConst = true := rfl

/-- The base iterator of a local iterator can be had from a non-const base iterator of the segment. -/
theorem Arg.LocalIn.base {R : Traits} {a : Arg} (h : a.LocalIn R) :
    ∃ b, a.ty = .loc b ∧ R.constrBase b (.base false) = true := by
  obtain ⟨h1, h2⟩ := h
  rcases a with k | k | ⟨_ | _, t⟩ | n
  · cases h1
  · exact ⟨_, rfl, by simp [Traits.constrBase, Traits.convBase]⟩
  · refine ⟨_, rfl, ?_⟩
    simp [Traits.constrBase, Arg.ty_core, h2 t rfl]
  · refine ⟨_, rfl, ?_⟩
    simp [Traits.constrBase, core_cst, h2 t rfl]
  · cases h1

/-- Every local iterator converts explicitly to every other: from const to non-const, and whatever
the types of elements are. -/
theorem C83_everything (R : Traits) {a p : Arg} (ha : a.LocalIn R) (hp : p.LocalIn R) :
    R.explicit a.ty p.ty = true := by
  obtain ⟨b2, e2, h2⟩ := ha.base
  obtain ⟨b, e, h⟩ := hp.base
  rw [e2, e]
  simp only [Traits.explicit, Traits.implicit, Traits.ctorImplicit, Traits.ctorExplicit,
    Traits.ctorPosition, h, h2]
  cases R.convBase b2 b <;> cases R.constrBase b b2 <;> simp

/-- From an iterator for elements of type `1` to one for elements of the unrelated type `2`. -/
example : baseTraits.explicit (Arg.lit true (.other 1)).ty (Arg.lit false (.other 2)).ty = true :=
  C83_everything baseTraits ⟨rfl, fun _ h => by cases h; rfl⟩ ⟨rfl, fun _ h => by cases h; rfl⟩

/-- All documented conversions exist, the implicit ones as such. -/
theorem C83_documented (R : Traits) (hup : ∀ t, R.up t t = true) {a p : Arg} {i : Bool}
    (h : Converts a p i) (ha : ∀ u, a.elem? = some u ∨ p.elem? = some u → R.casts u.ty = true) :
    R.explicit a.ty p.ty = true ∧ (i = true → R.implicit a.ty p.ty = true) := by
  have ex : a.isLocal = true → p.isLocal = true → R.explicit a.ty p.ty = true := fun h1 h2 =>
    C83_everything R ⟨h1, fun u hu => ha u (Or.inl hu)⟩ ⟨h2, fun u hu => ha u (Or.inr hu)⟩
  cases h with
  | const => exact ⟨rfl, fun _ => rfl⟩
  | constBase => exact ⟨rfl, fun _ => rfl⟩
  | constLocal u =>
    refine ⟨ex rfl rfl, fun _ => ?_⟩
    simp [Traits.implicit, Traits.ctorImplicit, Traits.convBase, Arg.ty, Arg.ty_core,
      Arg.ty_not_const, core_cst, hup]
  | toLocal u => exact ⟨ex rfl rfl, fun h => by cases h⟩
  | toConstLocal u => exact ⟨ex rfl rfl, fun h => by cases h⟩
  | toBase u => exact ⟨ex rfl rfl, fun h => by cases h⟩
  | toConstBase u => exact ⟨ex rfl rfl, fun h => by cases h⟩

example : anyTraits.explicit (Arg.lit false (.other 1)).ty (Arg.lbase false).ty = true :=
  (C83_documented anyTraits (fun _ => by simp [anyTraits]) (.toBase (.other 1)) fun _ _ => rfl).1

/-- An iterator through which elements cannot be modified. -/
def Arg.isConst : Arg → Bool
  | .iter k => k
  | .lbase k => k
  | .lit k _ => k
  | .other _ => false

/-- Implicit conversions of iterators do not drop `const`, global ones convert in no other way,
local iterators do not convert implicitly to base iterators, and base iterators convert implicitly to
local iterators for `value_type` and its base classes only.  Missing: the same for explicit
conversions, and that implicit ones keep the type of the elements (`C83_const_lost`,
`C83_retyped`). -/
theorem C83_implicit_partial (R : Traits) {a p : Arg} (ha : (a.isGlobal || a.isLocal) = true)
    (h : R.implicit a.ty p.ty = true) :
    (a.isConst = true → p.isConst = true) ∧ (a.isGlobal = true ↔ p.isGlobal = true) ∧
    (∀ u, a.elem? = some u → ∃ u', p.elem? = some u' ∧ R.up u.ty u'.ty = true) ∧
    (∀ u, a.elem? = none → p.elem? = some u → R.up R.value u.ty = true) := by
  rcases a with (_ | _) | (_ | _) | ⟨_ | _, t⟩ | n <;>
    rcases p with (_ | _) | (_ | _) | ⟨_ | _, t'⟩ | n' <;>
    simp_all [Traits.implicit, Traits.ctorImplicit, Traits.convBase, Arg.ty, Arg.isConst,
      Arg.ty_core, Arg.ty_not_const, core_cst, isConst_cst, Arg.isGlobal, Arg.isLocal, Arg.elem?]

example : baseTraits.implicit (Arg.lit true (.other 1)).ty (Arg.lit false (.other 0)).ty = false := by
  cases h : baseTraits.implicit (Arg.lit true (.other 1)).ty (Arg.lit false (.other 0)).ty
  · rfl
  · exact absurd ((C83_implicit_partial baseTraits rfl h).1 rfl) (by decide)

/-- No two of the three converting constructors apply to the same types, so no conversion is
ambiguous; and the implicit one is not available where an explicit one is. -/
theorem C83_unambiguous (R : Traits) (b b2 : Ty) :
    ¬(R.ctorImplicit b b2 = true ∧ R.ctorExplicit b b2 = true) ∧
    ¬(R.ctorImplicit b b2 = true ∧ R.ctorPosition b b2 = true) ∧
    ¬(R.ctorExplicit b b2 = true ∧ R.ctorPosition b b2 = true) := by
  simp only [Traits.ctorImplicit, Traits.ctorExplicit, Traits.ctorPosition, Traits.constrBase]
  cases R.convBase b2 b <;> simp +contextual

example : baseTraits.ctorPosition (.ptr (.obj 2)) (.ptr (.obj 1)) = true ∧
    baseTraits.ctorExplicit (.ptr (.obj 2)) (.ptr (.obj 1)) = false :=
  ⟨rfl, Bool.eq_false_iff.mpr fun h => (C83_unambiguous baseTraits _ _).2.2 ⟨h, rfl⟩⟩

/-- Which explicit conversions of iterators there are, exactly: any between local iterators; between
global ones those that do not drop `const`; none from local to global ones or back. -/
theorem C83_explicit (R : Traits) {a p : Arg} (ha : a.isGlobal = true ∨ a.LocalIn R)
    (hp : p.isGlobal = true ∨ p.LocalIn R) :
    R.explicit a.ty p.ty = true ↔
      (a.isLocal = true ∧ p.isLocal = true) ∨
      (a.isGlobal = true ∧ p.isGlobal = true ∧ (a.isConst = true → p.isConst = true)) := by
  rcases ha with ha | ha <;> rcases hp with hp | hp
  · rcases a with (_ | _) | k | ⟨k, t⟩ | n <;> rcases p with (_ | _) | k' | ⟨k', t'⟩ | n' <;>
      first
      | cases ha; done
      | cases hp; done
      | simp [Traits.explicit, Traits.implicit, Arg.ty, Arg.isGlobal, Arg.isLocal, Arg.isConst]
  · obtain ⟨b, e, _⟩ := hp.base
    have := hp.1
    rw [e]
    rcases a with k | k | ⟨k, t⟩ | n <;> first | cases ha; done | skip
    rcases p with k' | k' | ⟨k', t'⟩ | n' <;>
      simp_all [Traits.explicit, Traits.implicit, Arg.ty, Arg.isGlobal, Arg.isLocal]
  · obtain ⟨b, e, _⟩ := ha.base
    have := ha.1
    rw [e]
    rcases p with k | k | ⟨k, t⟩ | n <;> first | cases hp; done | skip
    rcases a with k' | k' | ⟨k', t'⟩ | n' <;>
      simp_all [Traits.explicit, Traits.implicit, Arg.ty, Arg.isGlobal, Arg.isLocal]
  · exact iff_of_true (C83_everything R ha hp) (.inl ⟨ha.1, hp.1⟩)

/-- `iterator` cannot be had from `const_iterator`, nor local iterators from global ones. -/
example : baseTraits.explicit (Arg.iter true).ty (Arg.iter false).ty = false ∧
    baseTraits.explicit (Arg.iter false).ty (Arg.lbase true).ty = false := by
  refine ⟨Bool.eq_false_iff.mpr fun h => ?_, Bool.eq_false_iff.mpr fun h => ?_⟩
  · exact absurd ((C83_explicit baseTraits (.inl rfl) (.inl rfl)).mp h) (by decide)
  · exact absurd ((C83_explicit baseTraits (.inl rfl)
      (.inr ⟨rfl, fun _ h => by cases h⟩)).mp h) (by decide)

/-- Types that have nothing to do with the collection: there are no conversions, explicit ones included, between base iterators
and local iterators for such a type, in either direction. -/
theorem C83_unrelated (R : Traits) (u : Arg) (hc : R.casts u.ty = false) (hw : R.wraps u.ty = false)
    (hu : R.up R.value u.ty = false) (k k' : Bool) :
    R.explicit (Arg.lbase k).ty (Arg.lit k' u).ty = false ∧ R.explicit (Arg.lit k' u).ty (Arg.lbase k).ty = false := by
  cases k <;> cases k' <;>
    simp [Traits.explicit, Traits.implicit, Traits.ctorImplicit, Traits.ctorExplicit, Traits.ctorPosition, Traits.constrBase,
      Traits.convBase, Arg.ty, Arg.ty_core, core_cst, hc, hw, hu]

/-- A class that is not derived from the base class. -/
example : baseTraits.explicit (Arg.lit false (.other 5)).ty (Arg.lbase true).ty = false :=
  (C83_unrelated baseTraits (.other 5) rfl rfl rfl true false).2

/-- How local iterators are turned into base iterators where pointers to elements can: by the pointer, unless `const` would be dropped,
which is done by way of the position in the segment; in both cases explicitly. -/
theorem C83_how (R : Traits) (u : Arg) (hc : R.casts u.ty = true) (hw : R.wraps u.ty = true) (k k' : Bool) :
    (R.ctorExplicit (.base k) (if k' then .ptr (.cst u.ty) else .ptr u.ty) = true ↔ (k' = true → k = true)) ∧
    (R.ctorPosition (.base k) (if k' then .ptr (.cst u.ty) else .ptr u.ty) = true ↔ k' = true ∧ k = false) ∧
    R.ctorImplicit (.base k) (if k' then .ptr (.cst u.ty) else .ptr u.ty) = false := by
  cases k <;> cases k' <;>
    simp [Traits.ctorImplicit, Traits.ctorExplicit, Traits.ctorPosition, Traits.constrBase, Traits.convBase, Arg.ty_core,
      Arg.ty_not_const, core_cst, isConst_cst, hc, hw]

/-- From `const_local_iterator<T>` to `local_base_iterator`. -/
example : baseTraits.ctorPosition (.base false) (.ptr (.cst (.obj 1))) = true :=
  (C83_how baseTraits (.other 1) rfl rfl false true).2.1.2 ⟨rfl, rfl⟩

/-- `const_local_base_iterator` and `const_local_iterator<U>` convert, explicitly, to
`local_base_iterator` and `local_iterator<U>`: the third constructor takes the position in the
segment and forgets `const`. -/
theorem C83_const_lost (R : Traits) (u : Arg) (hu : R.casts u.ty = true) :
    R.explicit (Arg.lbase true).ty (Arg.lbase false).ty = true ∧
    R.explicit (Arg.lbase true).ty (Arg.lit false u).ty = true ∧
    R.explicit (Arg.lit true u).ty (Arg.lbase false).ty = true ∧
    R.explicit (Arg.lit true u).ty (Arg.lit false u).ty = true := by
  have hb : ∀ k, (Arg.lbase k).LocalIn R := fun k => ⟨rfl, fun v hv => by cases hv⟩
  have hl : ∀ k, (Arg.lit k u).LocalIn R := fun k => ⟨rfl, fun v hv => by cases hv; exact hu⟩
  exact ⟨C83_everything R (hb _) (hb _), C83_everything R (hb _) (hl _),
    C83_everything R (hl _) (hb _), C83_everything R (hl _) (hl _)⟩

example : baseTraits.explicit (Arg.lit true (.other 1)).ty (Arg.lit false (.other 1)).ty = true :=
  (C83_const_lost baseTraits (.other 1) rfl).2.2.2

/-- If `T` is derived from `U`, `local_iterator<T>` converts implicitly to `local_iterator<U>`, and
`emplace_pos<U>` accepts it, although it is not an iterator of the segment for `U`.  In the same
way `local_base_iterator` converts implicitly to `local_iterator<value_type>`. -/
theorem C83_retyped (R : Traits) (t u : Arg) (htu : R.up t.ty u.ty = true) (hne : t ≠ u) :
    R.implicit (Arg.lit false t).ty (Arg.lit false u).ty = true ∧
    resolve R (emplacePosAs u.ty) [(Arg.lit false t).ty] = .one .emplacePosConstLocal ∧
    (R.up R.value u.ty = true → R.implicit (Arg.lbase false).ty (Arg.lit false u).ty = true) := by
  have hc := u.ty_closed
  have hn : ¬ u.ty = t.ty := fun h => hne (Arg.ty_inj h).symm
  refine ⟨?_, ?_, ?_⟩
  · simp [Traits.implicit, Traits.ctorImplicit, Traits.convBase, Arg.ty, Arg.ty_core,
      Arg.ty_not_const, htu]
  · have e1 : Cand.viable R [(Arg.lit false t).ty]
        { fn := .emplacePosBase, params := [Ty.localBase], guard := fun R _ => R.acceptable u.ty } =
        none := rfl
    have e2 : Cand.viable R [(Arg.lit false t).ty]
        { fn := .emplacePosConstBase, params := [Ty.constLocalBase]
          guard := fun R _ => R.acceptable u.ty } = none := rfl
    have e3 : Cand.viable R [(Arg.lit false t).ty]
        { fn := .emplacePosLocal, params := [(Ty.local' (.var 0)).inst 0 u.ty]
          order := [Ty.local' (.var 0)] } = some [true] := by
      simp [Cand.viable, Ty.local', Ty.inst, matchArgs, Ty.closed, hc, Arg.ty, hn,
        Traits.implicit, Traits.ctorImplicit, Traits.convBase, Arg.ty_core, Arg.ty_not_const, htu]
    have e4 : Cand.viable R [(Arg.lit false t).ty]
        { fn := .emplacePosConstLocal, params := [(Ty.constLocal (.var 0)).inst 0 u.ty]
          order := [Ty.constLocal (.var 0)] } = some [true] := by
      have hn' : ¬ Ty.cst u.ty = t.ty := fun h => Arg.ty_ne_cst _ _ h.symm
      simp [Cand.viable, Ty.constLocal, Ty.inst, matchArgs, Ty.closed, hc, Arg.ty, hn',
        Traits.implicit, Traits.ctorImplicit, Traits.convBase, Arg.ty_core, Arg.ty_not_const,
        core_cst, isConst_cst, htu]
    unfold resolve emplacePosAs
    simp only [List.map_cons, List.map_nil, e1, e2, e3, e4]
    rfl
  · intro hv
    simp [Traits.implicit, Traits.ctorImplicit, Traits.convBase, Arg.ty, Arg.ty_core, hv]

example : baseTraits.implicit (Arg.lit false (.other 2)).ty (Arg.lit false (.other 0)).ty = true :=
  (C83_retyped baseTraits (.other 2) (.other 0) rfl (by decide)).1

/-- What such an iterator is good for: with elements of `size` chars and a base of `size'` chars,
the pointer after the first element is not at any element. -/
theorem retyped_address (a size size' : Nat) (h0 : 0 < size') (h : size' < size) (i : Nat) :
    a + size' ≠ a + i * size := by
  intro e
  have e : size' = i * size := Nat.add_left_cancel e
  cases i with
  | zero => simp at e; omega
  | succ n => rw [Nat.succ_mul] at e; omega

example : (1000 + 8 : Nat) ≠ 1000 + 1 * 16 := retyped_address 1000 16 8 (by decide) (by decide) 1

end PolyColl.Props.Interface
