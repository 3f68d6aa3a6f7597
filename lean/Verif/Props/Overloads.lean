import Verif.Props.Interface
import Verif.Spec.Overloads
/-!
# Overload resolution is that of the language, whatever the overloads (C82)
-/

namespace PolyColl.Props.Interface

open PolyColl.Interface PolyColl.Interface.Spec

/-! ## Deduction -/

/-- The template parameters deduced are those of `σ`. -/
def Agrees (s : Sub) (σ : Nat → Ty) : Prop := ∀ n t, s.lookup n = some t → σ n = t

theorem lookup_push {s : Sub} {n m : Nat} {a t : Ty} :
    List.lookup m ((n, a) :: s) = some t ↔ (m = n ∧ a = t) ∨ (m ≠ n ∧ s.lookup m = some t) := by
  rw [List.lookup_cons]
  by_cases e : m = n
  · subst e; simp
  · simp [e, beq_eq_false_iff_ne.mpr e]

/-- What deduction finds: it keeps what there was, it binds the parameters of the pattern, and any
replacement that agrees with it turns the pattern into the argument. -/
theorem deduce_sound {p a : Ty} {s s' : Sub} (h : p.deduce a s = some s') :
    (∀ n t, s.lookup n = some t → s'.lookup n = some t) ∧
    (∀ n, Occurs n p → ∃ t, s'.lookup n = some t) ∧
    (∀ σ, Agrees s' σ → subst σ p = a) := by
  induction p generalizing a with
  | obj n =>
    simp only [Ty.deduce] at h
    split at h
    · cases h; next e => subst e; exact ⟨fun _ _ h => h, fun _ h => h.elim, fun _ _ => rfl⟩
    · cases h
  | konst n =>
    simp only [Ty.deduce] at h
    split at h
    · cases h; next e => subst e; exact ⟨fun _ _ h => h, fun _ h => h.elim, fun _ _ => rfl⟩
    · cases h
  | base n =>
    simp only [Ty.deduce] at h
    split at h
    · cases h; next e => subst e; exact ⟨fun _ _ h => h, fun _ h => h.elim, fun _ _ => rfl⟩
    · cases h
  | var n =>
    simp only [Ty.deduce] at h
    split at h
    · next e =>
      cases h
      refine ⟨fun m t hm => lookup_push.mpr (Or.inr ⟨?_, hm⟩), fun m hm => ?_, fun σ hσ => ?_⟩
      · rintro rfl; rw [e] at hm; cases hm
      · cases hm; exact ⟨a, lookup_push.mpr (Or.inl ⟨rfl, rfl⟩)⟩
      · exact hσ n a (lookup_push.mpr (Or.inl ⟨rfl, rfl⟩))
    · next b e =>
      split at h
      · next e' =>
        cases h; subst e'
        exact ⟨fun _ _ h => h, fun m hm => by cases hm; exact ⟨b, e⟩, fun σ hσ => hσ n b e⟩
      · cases h
  | cst t ih =>
    cases a <;> simp only [Ty.deduce] at h <;> first | cases h; done | skip
    obtain ⟨h1, h2, h3⟩ := ih h
    exact ⟨h1, h2, fun σ hσ => congrArg Ty.cst (h3 σ hσ)⟩
  | ptr t ih =>
    cases a <;> simp only [Ty.deduce] at h <;> first | cases h; done | skip
    obtain ⟨h1, h2, h3⟩ := ih h
    exact ⟨h1, h2, fun σ hσ => congrArg Ty.ptr (h3 σ hσ)⟩
  | iter t ih =>
    cases a <;> simp only [Ty.deduce] at h <;> first | cases h; done | skip
    obtain ⟨h1, h2, h3⟩ := ih h
    exact ⟨h1, h2, fun σ hσ => congrArg Ty.iter (h3 σ hσ)⟩
  | loc t ih =>
    cases a <;> simp only [Ty.deduce] at h <;> first | cases h; done | skip
    obtain ⟨h1, h2, h3⟩ := ih h
    exact ⟨h1, h2, fun σ hσ => congrArg Ty.loc (h3 σ hσ)⟩

theorem deduce_complete {p a : Ty} {s : Sub} {σ : Nat → Ty} (hs : Agrees s σ)
    (h : subst σ p = a) : ∃ s', p.deduce a s = some s' ∧ Agrees s' σ := by
  induction p generalizing a with
  | obj n => cases h; exact ⟨s, by simp [Ty.deduce, subst], hs⟩
  | konst n => cases h; exact ⟨s, by simp [Ty.deduce, subst], hs⟩
  | base n => cases h; exact ⟨s, by simp [Ty.deduce, subst], hs⟩
  | var n =>
    have h : σ n = a := h
    simp only [Ty.deduce]
    split
    · refine ⟨_, rfl, fun m t hm => ?_⟩
      rcases lookup_push.mp hm with ⟨rfl, rfl⟩ | ⟨_, hm⟩
      · exact h
      · exact hs m t hm
    · next b e =>
      have : b = a := (hs n b e).symm.trans h
      exact ⟨s, by simp [this], hs⟩
  | cst t ih => cases h; exact ih rfl
  | ptr t ih => cases h; exact ih rfl
  | iter t ih => cases h; exact ih rfl
  | loc t ih => cases h; exact ih rfl

theorem agrees_at (s : Sub) : Agrees s s.at := by
  intro n t h; simp [Sub.at, h]

theorem at_of_agrees {s : Sub} {σ : Nat → Ty} (h : Agrees s σ) {n : Nat} {t : Ty}
    (e : s.lookup n = some t) : s.at n = σ n := by
  rw [h n t e]; simp [Sub.at, e]

/-- Template arguments are deduced exactly if there are some that make the parameter have the type
of the argument, and what is deduced are these arguments. -/
theorem C82_deduction (p a : Ty) :
    ((∃ s, p.deduce a [] = some s) ↔ ∃ σ, subst σ p = a) ∧
    (∀ s σ, p.deduce a [] = some s → subst σ p = a → ∀ n, Occurs n p → s.at n = σ n) := by
  have hn : ∀ σ, Agrees [] σ := fun σ n t h => by cases h
  refine ⟨⟨fun ⟨s, h⟩ => ⟨s.at, (deduce_sound h).2.2 _ (agrees_at s)⟩, fun ⟨σ, h⟩ => ?_⟩, ?_⟩
  · obtain ⟨s, h1, _⟩ := deduce_complete (hn σ) h; exact ⟨s, h1⟩
  · intro s σ h1 h2 n ho
    obtain ⟨s', h3, h4⟩ := deduce_complete (hn σ) h2
    rw [h1] at h3; cases h3
    obtain ⟨t, ht⟩ := (deduce_sound h1).2.1 n ho
    exact at_of_agrees h4 ht

/-- `local_iterator_impl<BaseIterator>` and `const_local_iterator<T>`. -/
example : ∃ σ, subst σ (Ty.constLocal (.var 0)) = (Arg.lit true (.other 3)).ty :=
  (C82_deduction _ _).1.mp ⟨[(0, .obj 3)], rfl⟩
example : ¬∃ s, (Ty.constLocal (.var 0)).deduce (Arg.lit false (.other 3)).ty [] = some s :=
  fun h => by obtain ⟨σ, hσ⟩ := (C82_deduction _ _).1.mp h; cases hσ

/-! ## Viability -/

theorem closed_iff {p : Ty} : p.closed = true ↔ ∀ n, ¬Occurs n p := by
  induction p with
  | var n => simp [Ty.closed, Occurs]
  | cst t ih => exact ih
  | ptr t ih => exact ih
  | iter t ih => exact ih
  | loc t ih => exact ih
  | _ => simp [Ty.closed, Occurs]

theorem subst_closed {p : Ty} (h : p.closed = true) (σ : Nat → Ty) : subst σ p = p := by
  induction p with
  | var n => cases h
  | cst t ih => exact congrArg Ty.cst (ih h)
  | ptr t ih => exact congrArg Ty.ptr (ih h)
  | iter t ih => exact congrArg Ty.iter (ih h)
  | loc t ih => exact congrArg Ty.loc (ih h)
  | _ => rfl

theorem matchArgs_sound {R : Traits} {ps as : List Ty} {s s' : Sub} {rs : List Rank}
    (h : matchArgs R ps as s = some (rs, s')) :
    (∀ n t, s.lookup n = some t → s'.lookup n = some t) ∧
    (∀ n, ∀ p ∈ ps, Occurs n p → ∃ t, s'.lookup n = some t) ∧
    (∀ σ, Agrees s' σ → PassesAll R σ ps as rs) := by
  induction ps generalizing as s rs with
  | nil =>
    cases as with
    | nil =>
      simp only [matchArgs, Option.some.injEq, Prod.mk.injEq] at h
      obtain ⟨rfl, rfl⟩ := h
      exact ⟨fun _ _ h => h, fun _ q hq => absurd hq (by simp), fun _ _ => .nil⟩
    | cons a as => simp [matchArgs] at h
  | cons p ps ih =>
    cases as with
    | nil => simp [matchArgs] at h
    | cons a as =>
      simp only [matchArgs] at h
      split at h
      · next hc =>
        split at h
        · next e =>
          subst e
          obtain ⟨⟨r1, r2⟩, h1, h2⟩ := Option.map_eq_some_iff.mp h
          cases h2
          obtain ⟨k1, k2, k3⟩ := ih h1
          refine ⟨k1, fun n q hq ho => ?_, fun σ hσ => .cons (.exact (subst_closed hc σ)) (k3 σ hσ)⟩
          rcases List.mem_cons.mp hq with rfl | hq
          · exact absurd ho (closed_iff.mp hc n)
          · exact k2 n q hq ho
        · next e =>
          split at h
          · next hi =>
            obtain ⟨⟨r1, r2⟩, h1, h2⟩ := Option.map_eq_some_iff.mp h
            cases h2
            obtain ⟨k1, k2, k3⟩ := ih h1
            refine ⟨k1, fun n q hq ho => ?_,
              fun σ hσ => .cons (.converted (closed_iff.mp hc) e hi) (k3 σ hσ)⟩
            rcases List.mem_cons.mp hq with rfl | hq
            · exact absurd ho (closed_iff.mp hc n)
            · exact k2 n q hq ho
          · cases h
      · split at h
        · next s1 e =>
          obtain ⟨⟨r1, r2⟩, h1, h2⟩ := Option.map_eq_some_iff.mp h
          cases h2
          obtain ⟨k1, k2, k3⟩ := ih h1
          obtain ⟨d1, d2, d3⟩ := deduce_sound e
          refine ⟨fun n t hn => k1 n t (d1 n t hn), fun n q hq ho => ?_, fun σ hσ =>
            .cons (.exact (d3 σ fun n t hn => hσ n t (k1 n t hn))) (k3 σ hσ)⟩
          rcases List.mem_cons.mp hq with rfl | hq
          · obtain ⟨t, ht⟩ := d2 n ho; exact ⟨t, k1 n t ht⟩
          · exact k2 n q hq ho
        · cases h

theorem matchArgs_complete {R : Traits} {ps as : List Ty} {s : Sub} {rs : List Rank}
    {σ : Nat → Ty} (hs : Agrees s σ) (h : PassesAll R σ ps as rs) :
    ∃ s', matchArgs R ps as s = some (rs, s') ∧ Agrees s' σ := by
  induction h generalizing s with
  | nil => exact ⟨s, rfl, hs⟩
  | @cons p a r ps as rs hp _ ih =>
    simp only [matchArgs]
    cases hp with
    | exact e =>
      by_cases hc : p.closed = true
      · rw [subst_closed hc] at e
        subst e
        obtain ⟨s', h1, h2⟩ := ih hs
        exact ⟨s', by simp [hc, h1], h2⟩
      · obtain ⟨s1, h1, h2⟩ := deduce_complete hs e
        obtain ⟨s', h3, h4⟩ := ih h2
        exact ⟨s', by simp [hc, h1, h3], h4⟩
    | converted hc hne hi =>
      obtain ⟨s', h1, h2⟩ := ih hs
      exact ⟨s', by simp [closed_iff.mpr hc, hne, hi, h1], h2⟩

/-- The constraint of an overload depends on the template parameters that can be deduced only. -/
def Guarded (R : Traits) (f : Cand) : Prop :=
  ∀ s s' : Sub, (∀ n, ∀ p ∈ f.params, Occurs n p → s.at n = s'.at n) → f.guard R s = f.guard R s'

/-- An overload can be called exactly if there are template arguments with which all arguments can be
passed and which satisfy its constraint, and the conversions are those of passing the arguments. -/
theorem C82_viable (R : Traits) (args : List Ty) (f : Cand) (hf : Guarded R f) (rs : List Rank) :
    f.viable R args = some rs ↔
      ∃ s : Sub, f.guard R s = true ∧ PassesAll R s.at f.params args rs := by
  constructor
  · intro h
    unfold Cand.viable at h
    split at h
    · next rs1 s e =>
      split at h
      · next hg => cases h; exact ⟨s, hg, (matchArgs_sound e).2.2 _ (agrees_at s)⟩
      · cases h
    · cases h
  · rintro ⟨s, hg, hp⟩
    obtain ⟨s', h1, h2⟩ := matchArgs_complete (s := []) (fun n t h => by cases h) hp
    have : f.guard R s' = true := by
      rw [hf s' s fun n p hp ho => ?_]
      · exact hg
      · obtain ⟨t, ht⟩ := (matchArgs_sound h1).2.1 n p hp ho; exact at_of_agrees h2 ht
    simp [Cand.viable, h1, this]

/-- All overloads of `insert` are such. -/
theorem insert_guarded (R : Traits) : ∀ f ∈ insertOverloads, Guarded R f := by
  intro f hf s s' h
  simp only [insertOverloads, List.mem_cons, List.not_mem_nil, or_false] at hf
  rcases hf with rfl | rfl | rfl | rfl | rfl | rfl | rfl | rfl | rfl | rfl | rfl | rfl | rfl | rfl
  all_goals
    first
    | rfl
    | (have h0 := h 0 (.var 0) (by simp [insertVal, hintVal, rangeMixed, rangeTerminal,
        hintRangeMixed, hintRangeTerminal, posRange]) rfl
       simp [insertVal, hintVal, rangeMixed, rangeTerminal, hintRangeMixed, hintRangeTerminal,
         posRange, h0])
    | (have h0 := h 0 (.loc (.var 0)) (by simp [posVal]) rfl
       have h1 := h 1 (.var 1) (by simp [posVal]) rfl
       simp [posVal, h0, h1])

example : ∃ s : Sub, hintVal.guard baseTraits s = true ∧
    PassesAll baseTraits s.at hintVal.params [(Arg.iter false).ty, .obj 1] [true, false] :=
  (C82_viable baseTraits _ hintVal (insert_guarded _ _ (by simp [insertOverloads])) _).mp rfl

/-- If arguments cannot be passed in any way the overload is not viable, and if they can it depends
on the constraint alone. -/
theorem C82_not_viable (R : Traits) (args : List Ty) (f : Cand) (h : f.viable R args = none) :
    (∀ σ rs, ¬PassesAll R σ f.params args rs) ∨
    ∃ s rs, PassesAll R s.at f.params args rs ∧ f.guard R s = false := by
  unfold Cand.viable at h
  split at h
  · next rs s e =>
    split at h
    · cases h
    · next hg =>
      exact .inr ⟨s, rs, (matchArgs_sound e).2.2 _ (agrees_at s), Bool.not_eq_true _ ▸ hg⟩
  · next e =>
    refine .inl fun σ rs hp => ?_
    obtain ⟨s', h1, _⟩ := matchArgs_complete (s := []) (fun n t h => by cases h) hp
    rw [h1] at e; cases e

example : (∀ σ rs, ¬PassesAll baseTraits σ rangeIter.params [.obj 1, .obj 2] rs) ∨
    ∃ s rs, PassesAll baseTraits s.at rangeIter.params [.obj 1, .obj 2] rs ∧
      rangeIter.guard baseTraits s = false :=
  C82_not_viable baseTraits [.obj 1, .obj 2] rangeIter rfl

theorem passes_length {R : Traits} {σ : Nat → Ty} {ps args : List Ty} {rs : List Rank}
    (h : PassesAll R σ ps args rs) : rs.length = args.length := by
  induction h with
  | nil => rfl
  | cons _ _ ih => simp [ih]

theorem viable_ranks {R : Traits} {args : List Ty} {f : Cand} {rs : List Rank}
    (h : f.viable R args = some rs) : rs.length = args.length := by
  unfold Cand.viable at h
  split at h
  · next rs1 s e =>
    split at h
    · cases h; exact passes_length ((matchArgs_sound e).2.2 _ (agrees_at s))
    · cases h
  · cases h

/-! ## The best overload -/

theorem deduceAll_iff (ps as : List Ty) (s : Sub) (σ : Nat → Ty) (hs : Agrees s σ) :
    ps.map (subst σ) = as → ∃ s', deduceAll ps as s = some s' ∧ Agrees s' σ := by
  induction ps generalizing as s with
  | nil => rintro rfl; exact ⟨s, rfl, hs⟩
  | cons p ps ih =>
    rintro rfl
    obtain ⟨s1, h1, h2⟩ := deduce_complete (p := p) hs rfl
    obtain ⟨s', h3, h4⟩ := ih _ s1 h2 rfl
    exact ⟨s', by simp [deduceAll, h1, h3], h4⟩

theorem deduceAll_sound {ps as : List Ty} {s s' : Sub} (h : deduceAll ps as s = some s') :
    (∀ n t, s.lookup n = some t → s'.lookup n = some t) ∧
    ∀ σ, Agrees s' σ → ps.map (subst σ) = as := by
  induction ps generalizing as s with
  | nil =>
    cases as with
    | nil => cases h; exact ⟨fun _ _ h => h, fun _ _ => rfl⟩
    | cons a as => simp [deduceAll] at h
  | cons p ps ih =>
    cases as with
    | nil => simp [deduceAll] at h
    | cons a as =>
      simp only [deduceAll] at h
      split at h
      · next s1 e =>
        obtain ⟨d1, _, d3⟩ := deduce_sound e
        obtain ⟨k1, k2⟩ := ih h
        refine ⟨fun n t hn => k1 n t (d1 n t hn), fun σ hσ => ?_⟩
        rw [List.map_cons, k2 σ hσ, d3 σ fun n t hn => hσ n t (k1 n t hn)]
      · cases h

theorem specialised_iff (f g : Cand) : f.specialised g = true ↔ Covers g f := by
  unfold Cand.specialised Covers
  rw [Option.isSome_iff_exists]
  exact ⟨fun ⟨s, h⟩ => ⟨s.at, (deduceAll_sound h).2 _ (agrees_at s)⟩, fun ⟨σ, h⟩ => by
    obtain ⟨s, h1, _⟩ := deduceAll_iff _ _ [] σ (fun n t h => by cases h) h; exact ⟨s, h1⟩⟩

theorem zip_all_iff (rf rg : List Rank) (h : rf.length = rg.length) :
    (rf.zip rg).all (fun p => !p.1 || p.2) = true ↔
      ∀ i : Nat, rf[i]? = some true → rg[i]? = some true := by
  induction rf generalizing rg with
  | nil => simp
  | cons a rf ih =>
    cases rg with
    | nil => cases h
    | cons b rg =>
      have := ih rg (by simpa using h)
      simp only [List.zip_cons_cons, List.all_cons, Bool.and_eq_true, this]
      constructor
      · rintro ⟨h1, h2⟩ (_ | i)
        · cases a <;> cases b <;> simp_all
        · simpa using h2 i
      · intro h
        refine ⟨?_, fun i => by simpa using h (i + 1)⟩
        have := h 0
        cases a <;> cases b <;> simp_all

theorem zip_any_iff (rf rg : List Rank) :
    (rf.zip rg).any (fun p => !p.1 && p.2) = true ↔
      ∃ i : Nat, rf[i]? = some false ∧ rg[i]? = some true := by
  induction rf generalizing rg with
  | nil => simp
  | cons a rf ih =>
    cases rg with
    | nil => simp
    | cons b rg =>
      simp only [List.zip_cons_cons, List.any_cons, Bool.or_eq_true, ih rg]
      constructor
      · rintro (h | ⟨i, h⟩)
        · exact ⟨0, by cases a <;> cases b <;> simp_all⟩
        · exact ⟨i + 1, by simpa using h⟩
      · rintro ⟨_ | i, h⟩
        · left; cases a <;> cases b <;> simp_all
        · exact .inr ⟨i, by simpa using h⟩

theorem better_iff (f g : Cand) (rf rg : List Rank) (h : rf.length = rg.length) :
    f.better rf g rg = true ↔ Better f rf g rg := by
  simp only [Cand.better, Better, Bool.and_eq_true, Bool.or_eq_true, zip_all_iff rf rg h,
    zip_any_iff, Bool.not_eq_true', or_assoc, and_assoc, specialised_iff,
    ← Bool.not_eq_true (g.specialised f)]

/-- No overload is better than another that is better than it. -/
theorem better_asymm {f g : Cand} {rf rg : List Rank} (h : Better f rf g rg) :
    ¬Better g rg f rf := by
  rintro ⟨h1, h2⟩
  obtain ⟨k1, k2⟩ := h
  rcases h2 with ⟨i, a, b⟩ | ⟨a, b⟩ | ⟨a, b, c, d⟩
  · rw [k1 i b] at a; cases a
  · rcases k2 with ⟨i, a', b'⟩ | ⟨a', b'⟩ | ⟨a', b', _⟩
    · rw [h1 i b'] at a'; cases a'
    · rw [a] at b'; cases b'
    · rw [a] at b'; cases b'
  · rcases k2 with ⟨i, a', b'⟩ | ⟨a', b'⟩ | ⟨a', b', c', d'⟩
    · rw [h1 i b'] at a'; cases a'
    · rw [b] at a'; cases a'
    · exact d c'

/-- Whatever the overloads are: the function selected is the one that can be called and is better
than all others that can, and none is selected if none can be called; in all other cases the call is
ambiguous. -/
theorem C82_resolution (R : Traits) (cands : List Cand) (args : List Ty)
    (hd : (cands.map Cand.fn).Nodup) :
    (∀ f, resolve R cands args = .one f ↔ Selected R cands args f) ∧
    (resolve R cands args = .none ↔ ∀ c ∈ cands, c.viable R args = none) := by
  have inj : ∀ c ∈ cands, ∀ d ∈ cands, c.fn = d.fn → c = d := by
    clear args R
    induction cands with
    | nil => intro c hc; cases hc
    | cons x xs ih =>
      simp only [List.map_cons, List.nodup_cons, List.mem_map, not_exists, not_and] at hd
      intro c hc d hd' e
      rcases List.mem_cons.mp hc with rfl | hc1 <;> rcases List.mem_cons.mp hd' with rfl | hd1
      · rfl
      · exact absurd e.symm (hd.1 d hd1)
      · exact absurd e (hd.1 c hc1)
      · exact ih hd.2 c hc1 d hd1 e
  have mem : ∀ q : Cand × List Rank, q ∈ ((cands.map fun f => (f, f.viable R args)).filterMap
      fun p => p.2.map fun rs => (p.1, rs)) ↔ q.1 ∈ cands ∧ q.1.viable R args = some q.2 := by
    intro q
    simp only [List.mem_filterMap, List.mem_map]
    constructor
    · rintro ⟨_, ⟨c, hc, rfl⟩, h⟩
      obtain ⟨rs, h1, rfl⟩ := Option.map_eq_some_iff.mp h
      exact ⟨hc, h1⟩
    · rintro ⟨hc, h⟩
      exact ⟨_, ⟨q.1, hc, rfl⟩, by simp [h]⟩
  unfold resolve pick
  revert mem
  generalize ((cands.map fun f => (f, f.viable R args)).filterMap
    fun p => p.2.map fun rs => (p.1, rs)) = vs
  intro mem
  dsimp only
  have best : ∀ p ∈ vs, ((vs.all fun q => q.1.fn == p.1.fn || p.1.better p.2 q.1 q.2) = true ↔
      ∀ d ∈ cands, d.fn ≠ p.1.fn → ∀ rs', d.viable R args = some rs' → Better p.1 p.2 d rs') := by
    intro p hp
    have lp := viable_ranks ((mem p).mp hp).2
    simp only [List.all_eq_true, Bool.or_eq_true, beq_iff_eq]
    constructor
    · intro h d hdm hne rs' hv
      rcases h (d, rs') ((mem (d, rs')).mpr ⟨hdm, hv⟩) with e | e
      · exact absurd e hne
      · exact (better_iff _ _ _ _ (lp.trans (viable_ranks hv).symm)).mp e
    · intro h q hq
      by_cases e : q.1.fn = p.1.fn
      · exact .inl e
      · have hq := (mem q).mp hq
        exact .inr ((better_iff _ _ _ _ (lp.trans (viable_ranks hq.2).symm)).mpr
          (h q.1 hq.1 e q.2 hq.2))
  constructor
  · intro f
    constructor
    · intro h
      split at h
      · cases h
      · split at h
        · next p e =>
          cases h
          have hp := List.mem_of_find?_eq_some e
          have hb := List.find?_some e
          have := (best p hp).mp hb
          obtain ⟨h1, h2⟩ := (mem p).mp hp
          exact ⟨p.1, h1, rfl, p.2, h2, this⟩
        · cases h
    · rintro ⟨c, hc, rfl, rs, hv, hb⟩
      have hm := (mem (c, rs)).mpr ⟨hc, hv⟩
      have hbest := (best (c, rs) hm).mpr hb
      split
      · cases hm
      · split
        · next p e =>
          have hp := List.mem_of_find?_eq_some e
          have hb' := List.find?_some e
          have hpb := (best p hp).mp hb'
          obtain ⟨h1, h2⟩ := (mem p).mp hp
          by_cases e' : p.1.fn = c.fn
          · rw [e']
          · exact absurd (hpb c hc (fun x => e' x.symm) rs hv) (better_asymm (hb p.1 h1 e' p.2 h2))
        · next e =>
          exact absurd hbest (by simpa using List.find?_eq_none.mp e (c, rs) hm)
  · constructor
    · intro h c hc
      split at h
      · cases e : c.viable R args with
        | none => rfl
        | some rs => exact absurd ((mem (c, rs)).mpr ⟨hc, e⟩) (by simp)
      · split at h <;> cases h
    · intro h
      split
      · rfl
      · next hne =>
        cases vs with
        | nil => exact absurd rfl hne
        | cons p _ =>
          obtain ⟨h1, h2⟩ := (mem p).mp (List.mem_cons_self)
          rw [h p.1 h1] at h2; cases h2

/-- A call `insert(it,x)` of a collection of base classes; and two overloads each of which is better
for one of the arguments. -/
example : Selected baseTraits insertOverloads [(Arg.iter false).ty, .obj 1] .hintVal :=
  ((C82_resolution baseTraits insertOverloads _ (by decide)).1 _).mp (by decide)
example : ¬∃ f, Selected baseTraits
    [{ fn := .eraseOne, params := [Ty.constIterator, Ty.iterator], template := false },
     { fn := .eraseRange, params := [Ty.iterator, Ty.constIterator], template := false }]
    [Ty.iterator, Ty.iterator] f := by
  rintro ⟨f, h⟩
  have := ((C82_resolution baseTraits _ [Ty.iterator, Ty.iterator] (by decide)).1 f).mpr h
  revert this
  cases f <;> decide

end PolyColl.Props.Interface
