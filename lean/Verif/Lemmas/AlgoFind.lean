import Verif.Lemmas.AlgoSim
/-! # The algorithms that return iterators -/

namespace PolyColl
open Prog
namespace Algo
variable {V : Type} (E : Env V) {m : Type → Type} [Monad m] [LawfulMonad m] {σ B O W : Type}
open Coll

/-- The iterator with which searches fail: the end of the range. -/
structure EndAt (c : Coll V) (last : GIter) (r : Nat) : Prop where
  atRank : AtRank E c last r
  usable : c.map.usable E last.mapend = true
  node : last.mapend.node = none

theorem EndAt.of {c : Coll V} {last : GIter} {q : Spec.State.Pos} (h : c.At E last q) : EndAt E c last (c.abs.rank q) :=
  ⟨⟨q, h, rfl⟩, h.endUsable, h.endNode⟩

/-- An algorithm for pieces, `alg`, does the same as `std` on their elements. -/
def Lifts (c : Coll V) (Ts : List Ty) (alg : SegInfo → σ → OptionT m (LIter × σ)) (std : List (Passed V) → σ → m (Nat × σ))
    (Ok : σ → List (Passed V) → Prop) : Prop :=
  ∀ i n a b s l', IsPiece E c i n a b → Ok s (passed Ts (sliceOf n.seg a (b - a)) ++ l') →
    Sim (fun x y => x.1 = ⟨i.first.mapit, n.seg.base (a + y.1)⟩ ∧ y.1 ≤ b - a ∧ x.2 = y.2 ∧ (y.1 = b - a → Ok y.2 l'))
      (alg i s) (std (passed Ts (sliceOf n.seg a (b - a))) s)

theorem findIn_sim {c : Coll V} {w : World} (h : c.Inv E w) {Ts : List Ty} {alg : SegInfo → σ → OptionT m (LIter × σ)}
    {std : List (Passed V) → σ → m (Nat × σ)} {Ok : σ → List (Passed V) → Prop} (hnil : ∀ s, std [] s = pure (0, s))
    (happ : ∀ l l' s, Ok s (l ++ l') → std (l ++ l') s = std l s >>= fun n =>
      if n.1 = l.length then (fun k => (k.1 + l.length, k.2)) <$> std l' n.2 else pure n)
    (hlift : Lifts E c Ts alg std Ok) {last : GIter} {f : Bool} {ps : List SegInfo} {r : Nat} {l : List (Ty × V)} (hc : Cut E c f ps r l) :
    ∀ s, Ok s (passed Ts l) → EndAt E c last (r + l.length) →
      Sim (fun x y => AtRank E c x.1 (r + y.1) ∧ x.2 = y.2 ∧ y.1 ≤ l.length) (findIn E c last alg ps s) (std (passed Ts l) s) := by
  induction hc with
  | nil => intro s _ he; exact (Sim.pure ⟨he.atRank, rfl, Nat.le_refl _⟩).congr (hnil s).symm
  | @cons f i is n a b r l hp hr hz hc ih =>
    intro s hok he
    rw [passed_append] at hok ⊢
    rw [happ _ _ _ hok]
    have hlen : (sliceOf n.seg a (b - a)).length = b - a := by
      have := hp.le
      have := hp.le'
      exact sliceOf_length (by omega)
    refine (hlift i n a b s _ hp hok).bind fun x y hxy => ?_
    obtain ⟨h1, h2, h3, h4⟩ := hxy
    have hle := hp.le
    have hle' := hp.le'
    rw [sliceP_length E hp, h1]
    have hiff : (n.seg.base (a + y.1) ≠ i.last.pos) ↔ y.1 ≠ b - a := by
      rw [hp.last, ne_eq, base_inj]
      omega
    by_cases hy : y.1 = b - a
    · rw [if_neg (fun hh => hiff.1 hh hy), if_pos hy, h3]
      have := ih y.2 (h4 hy) (by rw [List.length_append, hlen, ← Nat.add_assoc] at he; exact he)
      obtain ⟨z, hz1, hz2⟩ := this
      refine ⟨(fun p => ⟨(p.1.1, (p.1.2.1 + (b - a), p.1.2.2)), ?_⟩) <$> z, ?_, ?_⟩
      · obtain ⟨q1, q2, q3⟩ := p.2
        refine ⟨?_, q2, by simp only [List.length_append, hlen]; omega⟩
        have : r + (p.1.2.1 + (b - a)) = r + (b - a) + p.1.2.1 := by omega
        simp only [this]
        exact q1
      · rw [hz1, Functor.map_map]
      · rw [hz2, Functor.map_map, Functor.map_map]
    · rw [if_pos (hiff.2 hy), if_neg hy]
      obtain ⟨g, g1, g2⟩ := iteratorFrom_eq E h hp.use (k := a + y.1) (by omega) he.usable he.node
      refine Sim.defd g1 (Sim.pure ⟨?_, h3, by rw [List.length_append, hlen]; omega⟩)
      rw [rank_add E h.map hp.use.mem, hr] at g2
      exact g2

/-! ### Properties of the results -/

/-- All results of a computation have the property. -/
def Results {α : Type} (P : α → Prop) (x : m α) : Prop := ∃ z : m {a // P a}, x = Subtype.val <$> z

theorem Results.pure {α : Type} {P : α → Prop} {a : α} (h : P a) : Results (m := m) P (Pure.pure a) :=
  ⟨Pure.pure ⟨a, h⟩, by rw [map_pure]⟩

theorem Results.any {α : Type} (x : m α) : Results (fun _ => True) x :=
  ⟨(fun a => ⟨a, trivial⟩) <$> x, by simp⟩

theorem Results.bind {α β : Type} {P : α → Prop} {Q : β → Prop} {x : m α} {f : α → m β} (h : Results P x)
    (hf : ∀ a, P a → Results Q (f a)) : Results Q (x >>= f) := by
  obtain ⟨z, rfl⟩ := h
  have hf' : ∀ a : {a // P a}, ∃ k : m {b // Q b}, f a.1 = Subtype.val <$> k := fun a => hf a.1 a.2
  obtain ⟨k, hk⟩ := Classical.axiomOfChoice hf'
  refine ⟨z >>= k, ?_⟩
  rw [map_bind, bind_map_left]
  exact bind_congr hk

theorem Results.anyBind {α β : Type} {Q : β → Prop} {x : m α} {f : α → m β} (hf : ∀ a, Results Q (f a)) : Results Q (x >>= f) :=
  (Results.any x).bind fun a _ => hf a

theorem Results.map {α β : Type} {P : α → Prop} {Q : β → Prop} {x : m α} {f : α → β} (h : Results P x)
    (hf : ∀ a, P a → Q (f a)) : Results Q (f <$> x) := by
  obtain ⟨z, rfl⟩ := h
  exact ⟨(fun a => ⟨f a.1, hf a.1 a.2⟩) <$> z, by simp⟩

theorem Results.mono {α : Type} {P Q : α → Prop} {x : m α} (h : Results P x) (hf : ∀ a, P a → Q a) : Results Q x := by
  obtain ⟨z, rfl⟩ := h
  exact ⟨(fun a => ⟨a.1, hf a.1 a.2⟩) <$> z, by simp⟩

omit [LawfulMonad m] in
theorem Results.ite {α : Type} {P : α → Prop} {b : Prop} [Decidable b] {x y : m α} (h : b → Results P x) (h' : ¬ b → Results P y) :
    Results P (if b then x else y) := by
  split
  · exact h ‹_›
  · exact h' ‹_›

theorem Results.sim {α : Type} {P : α → Prop} {x : m α} (h : Results P x) : Sim (fun a b => a = b ∧ P b) (Algo.call x) x := by
  obtain ⟨z, rfl⟩ := h
  refine ⟨(fun a => ⟨(a.1, a.1), rfl, a.2⟩) <$> z, ?_, ?_⟩
  · rw [Functor.map_map]
    show some <$> Subtype.val <$> z = _
    rw [Functor.map_map]
  · rw [Functor.map_map]

/-! ### Searches by elements -/

/-- A search in a list that goes through it from the beginning. -/
structure Search (alg : List (Passed V) → m Nat) : Prop where
  nil : alg [] = pure 0
  append : ∀ l l', alg (l ++ l') = alg l >>= fun n => if n = l.length then (fun k => k + l.length) <$> alg l' else pure n
  bound : ∀ l, Results (fun n => n ≤ l.length) (alg l)

theorem search_findIf (p : Passed V → m Bool) : Search (StdAlg.findIf p) where
  nil := rfl
  append := StdAlg.findIf_append p
  bound l := by
    induction l with
    | nil => exact Results.pure (Nat.le_refl _)
    | cons a l ih =>
      refine Results.anyBind fun b => Results.ite (fun _ => Results.pure (Nat.zero_le _)) (fun _ => ih.bind fun n hn => Results.pure ?_)
      simpa using hn

theorem search_findIfNot (p : Passed V → m Bool) : Search (StdAlg.findIfNot p) where
  nil := rfl
  append := StdAlg.findIfNot_append p
  bound l := by
    induction l with
    | nil => exact Results.pure (Nat.le_refl _)
    | cons a l ih =>
      refine Results.anyBind fun b => Results.ite (fun _ => ih.bind fun n hn => Results.pure ?_) (fun _ => Results.pure (Nat.zero_le _))
      simpa using hn

theorem lift_lifts {c : Coll V} {w : World} (h : c.Core E w) (Ts : List Ty) {alg : List (Passed V) → m Nat} (ha : Search alg) :
    Lifts (σ := Unit) E c Ts (lift E c Ts alg) (fun l s => (fun n => (n, s)) <$> alg l) (fun _ _ => True) := by
  intro i n a b s l' hp _
  obtain ⟨rg, h1, h2, h3, h4⟩ := hp.rangeP E h Ts
  refine Sim.defd h1 ?_
  rw [← h3]
  show Sim _ _ ((fun n => (n, s)) <$> alg rg.vals)
  rw [map_eq_pure_bind]
  refine (ha.bound _).sim.bind fun k k' hk => ?_
  obtain ⟨rfl, hk⟩ := hk
  rw [h3, sliceP_length E hp] at hk
  have := hp.le
  have := hp.le'
  refine Sim.defd (h2.at E h (k := k) (by omega)) (Sim.pure ⟨by rw [h4], hk, rfl, fun _ => trivial⟩)

/-- `find_if` and its relatives. -/
theorem genericFind_sim {c : Coll V} {w : World} (h : c.Inv E w) (Ts : List Ty) {alg : List (Passed V) → m Nat} (ha : Search alg)
    {last : GIter} {f : Bool} {ps : List SegInfo} {r : Nat} {l : List (Ty × V)} (hc : Cut E c f ps r l) (he : EndAt E c last (r + l.length)) :
    Sim (fun x n => AtRank E c x.1 (r + n) ∧ n ≤ l.length) (findIn E c last (lift E c Ts alg) ps ()) (alg (passed Ts l)) := by
  have := findIn_sim E h (alg := lift E c Ts alg) (std := fun l s => (fun n => (n, s)) <$> alg l) (Ok := fun _ _ => True) ?_ ?_
    (lift_lifts E (Inv.core E h) Ts ha) hc () trivial he
  · obtain ⟨z, h1, h2⟩ := this
    refine ⟨(fun p => ⟨(p.1.1, p.1.2.1), ⟨p.2.1, p.2.2.2⟩⟩) <$> z, ?_, ?_⟩
    · rw [h1, Functor.map_map]
    · rw [Functor.map_map]
      have := congrArg (fun x => Prod.fst <$> x) h2
      simpa using this
  · intro s; simp [ha.nil]
  · intro l l' s _
    rw [ha.append]
    simp only [map_bind, bind_map_left]
    refine bind_congr fun n => ?_
    split <;> simp

/-! ### mismatch -/

theorem mismatch_bound (p : Passed V → B → m Bool) (l : List (Passed V)) : ∀ bs : List B,
    Results (fun r => r.1 ≤ l.length ∧ r.1 ≤ bs.length ∧ r.2 = bs.drop r.1) (StdAlg.mismatch p l bs) := by
  induction l with
  | nil => intro bs; exact Results.pure ⟨Nat.le_refl _, Nat.zero_le _, rfl⟩
  | cons a l ih =>
    intro bs
    cases bs with
    | nil => exact Results.pure ⟨Nat.zero_le _, Nat.le_refl _, rfl⟩
    | cons b bs =>
      refine Results.anyBind fun b => Results.ite (fun _ => (ih bs).bind fun n hn => Results.pure ?_)
        (fun _ => Results.pure ⟨Nat.zero_le _, Nat.zero_le _, rfl⟩)
      obtain ⟨h1, h2, h3⟩ := hn
      exact ⟨by simpa using h1, by simpa using h2, by simpa using h3⟩

theorem mismatch4Alg_eq (p : Passed V → B → m Bool) (l : List (Passed V)) : ∀ bs : List B,
    Sim (fun x y => x = y ∧ y.1 ≤ l.length ∧ y.1 ≤ bs.length ∧ y.2 = bs.drop y.1) (mismatch4Alg p l bs) (StdAlg.mismatch p l bs) := by
  induction l with
  | nil => intro bs; exact Sim.pure ⟨rfl, Nat.le_refl _, Nat.zero_le _, rfl⟩
  | cons a l ih =>
    intro bs
    cases bs with
    | nil => exact Sim.pure ⟨rfl, Nat.zero_le _, Nat.le_refl _, rfl⟩
    | cons b bs =>
      refine Sim.callBind fun b => Sim.ite (fun _ => (ih bs).bind fun x n hn => Sim.pure ?_)
        (fun _ => Sim.pure ⟨rfl, Nat.zero_le _, Nat.zero_le _, rfl⟩)
      obtain ⟨rfl, h1, h2, h3⟩ := hn
      exact ⟨rfl, by simpa using h1, by simpa using h2, by simpa using h3⟩

theorem mismatch3Alg_eq (p : Passed V → B → m Bool) (l : List (Passed V)) : ∀ bs : List B, l.length ≤ bs.length →
    Sim (fun x y => x = y ∧ y.1 ≤ l.length ∧ y.1 ≤ bs.length ∧ y.2 = bs.drop y.1) (mismatch3Alg p l bs) (StdAlg.mismatch p l bs) := by
  induction l with
  | nil => intro bs _; exact Sim.pure ⟨rfl, Nat.le_refl _, Nat.zero_le _, rfl⟩
  | cons a l ih =>
    intro bs hb
    cases bs with
    | nil => simp at hb
    | cons b bs =>
      refine Sim.callBind fun b => Sim.ite (fun _ => (ih bs (by simpa using hb)).bind fun x n hn => Sim.pure ?_)
        (fun _ => Sim.pure ⟨rfl, Nat.zero_le _, Nat.zero_le _, rfl⟩)
      obtain ⟨rfl, h1, h2, h3⟩ := hn
      exact ⟨rfl, by simpa using h1, by simpa using h2, by simpa using h3⟩

theorem mismatch4_lifts {c : Coll V} {w : World} (h : c.Core E w) (Ts : List Ty) (p : Passed V → B → m Bool) :
    Lifts E c Ts (mismatchLift E c Ts (mismatch4Alg p)) (StdAlg.mismatch p) (fun _ _ => True) := by
  intro i n a b s l' hp _
  obtain ⟨rg, h1, h2, h3, h4⟩ := hp.rangeP E h Ts
  refine Sim.defd h1 ?_
  rw [← h3]
  refine Sim.congr (y := StdAlg.mismatch p rg.vals s >>= pure) ?_ (by simp)
  refine (mismatch4Alg_eq p _ s).bind fun k k' hk => ?_
  obtain ⟨rfl, hk, -, -⟩ := hk
  rw [h3, sliceP_length E hp] at hk
  have := hp.le
  have := hp.le'
  exact Sim.defd (h2.at E h (k := k.1) (by omega)) (Sim.pure ⟨by rw [h4], hk, rfl, fun _ => trivial⟩)

theorem mismatch3_lifts {c : Coll V} {w : World} (h : c.Core E w) (Ts : List Ty) (p : Passed V → B → m Bool) :
    Lifts E c Ts (mismatchLift E c Ts (mismatch3Alg p)) (StdAlg.mismatch p) (fun bs l => l.length ≤ bs.length) := by
  intro i n a b s l' hp hok
  obtain ⟨rg, h1, h2, h3, h4⟩ := hp.rangeP E h Ts
  refine Sim.defd h1 ?_
  have hl := sliceP_length (Ts := Ts) E hp
  rw [← h3] at hok hl ⊢
  refine Sim.congr (y := StdAlg.mismatch p rg.vals s >>= pure) ?_ (by simp)
  rw [List.length_append] at hok
  refine (mismatch3Alg_eq p _ s (by omega)).bind fun k k' hk => ?_
  obtain ⟨rfl, hk, hk2, hk3⟩ := hk
  have := hp.le
  have := hp.le'
  refine Sim.defd (h2.at E h (k := k.1) (by omega)) (Sim.pure ⟨by rw [h4], by omega, rfl, fun e => ?_⟩)
  show l'.length ≤ k.2.length
  rw [hk3, List.length_drop]
  omega

theorem mismatch4In_sim {c : Coll V} {w : World} (h : c.Inv E w) (Ts : List Ty) (p : Passed V → B → m Bool) {last : GIter} {f : Bool}
    {ps : List SegInfo} {r : Nat} {l : List (Ty × V)} (hc : Cut E c f ps r l) (he : EndAt E c last (r + l.length)) (bs : List B) :
    Sim (fun x y => AtRank E c x.1 (r + y.1) ∧ x.2 = y.2 ∧ y.1 ≤ l.length) (findIn E c last (mismatchLift E c Ts (mismatch4Alg p)) ps bs)
      (StdAlg.mismatch p (passed Ts l) bs) :=
  findIn_sim E h (fun s => by simp [StdAlg.mismatch]) (fun l l' s _ => StdAlg.mismatch_append p l l' s)
    (mismatch4_lifts E (Inv.core E h) Ts p) hc bs trivial he

theorem mismatch3In_sim {c : Coll V} {w : World} (h : c.Inv E w) (Ts : List Ty) (p : Passed V → B → m Bool) {last : GIter} {f : Bool}
    {ps : List SegInfo} {r : Nat} {l : List (Ty × V)} (hc : Cut E c f ps r l) (he : EndAt E c last (r + l.length)) (bs : List B)
    (hb : l.length ≤ bs.length) :
    Sim (fun x y => AtRank E c x.1 (r + y.1) ∧ x.2 = y.2 ∧ y.1 ≤ l.length) (findIn E c last (mismatchLift E c Ts (mismatch3Alg p)) ps bs)
      (StdAlg.mismatch p (passed Ts l) bs) :=
  findIn_sim E h (fun s => by simp [StdAlg.mismatch]) (fun l l' s _ => StdAlg.mismatch_append p l l' s)
    (mismatch3_lifts E (Inv.core E h) Ts p) hc bs (by rw [passed_length]; exact hb) he

end Algo
end PolyColl
