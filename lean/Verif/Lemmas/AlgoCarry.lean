import Verif.Lemmas.AlgoSearch
/-! # Algorithms that carry something from one segment to the next -/

namespace PolyColl
open Prog
namespace Algo
variable {V : Type} (E : Env V) {m : Type → Type} [Monad m] [LawfulMonad m] {σ B O W : Type}
open Coll

/-! ### search_n -/

/-- The state of `searchNAlg` after `n` elements of the piece, the last `run` elements matching. -/
def RunState (count n : Nat) (res : Option Nat) (carry : Bool) (remain run : Nat) : Prop :=
  run < count ∧ remain = count - run ∧
    ((carry = true ∧ n ≤ run ∧ res = if n = 0 then none else some 0) ∨
     (carry = false ∧ ((res = none ∧ run = 0) ∨ ∃ k, res = some k ∧ k + run = n ∧ 0 < run)))

theorem searchNAlg_eq (p : Passed V → m Bool) (count : Nat) (l' : List (Passed V)) (P start : Nat) :
    ∀ (l : List (Passed V)) (n : Nat) (res : Option Nat) (carry : Bool) (remain run : Nat), RunState count n res carry remain run →
      (carry = true → P + n = start + run) →
      StdAlg.searchNFrom p count (l ++ l') (P + n) run = searchNAlg p count l n res carry remain >>= fun x =>
        if x.2.2 = 0 then pure (if x.2.1 then start else P + x.1)
        else StdAlg.searchNFrom p count l' (P + n + l.length) (count - x.2.2) := by
  intro l
  induction l with
  | nil =>
    intro n res carry remain run hs hst
    obtain ⟨h1, rfl, -⟩ := hs
    have h2 : ¬ count - run = 0 := by omega
    have h3 : count - (count - run) = run := by omega
    cases res <;> simp [searchNAlg, h2, h3]
  | cons a l ih =>
    intro n res carry remain run hs hst
    obtain ⟨h1, rfl, h2⟩ := hs
    simp only [List.cons_append, StdAlg.searchNFrom, searchNAlg, bind_assoc]
    refine bind_congr fun b => ?_
    cases b
    · simp only [Bool.false_eq_true, if_false]
      have := ih (n + 1) none false count 0 ⟨by omega, by omega, .inr ⟨rfl, .inl ⟨rfl, rfl⟩⟩⟩ (fun e => by cases e)
      rw [← Nat.add_assoc] at this
      rw [this]
      refine bind_congr fun x => ?_
      simp only [List.length_cons, show P + n + 1 + l.length = P + n + (l.length + 1) by omega]
    · simp only [if_true]
      by_cases hc : run + 1 = count
      · have h3 : count - run - 1 = 0 := by omega
        rw [if_pos hc, if_pos h3]
        simp only [pure_bind, h3, if_true]
        congr 1
        rcases h2 with ⟨rfl, hn, rfl⟩ | ⟨rfl, ⟨rfl, rfl⟩ | ⟨k, rfl, hk, hk0⟩⟩
        · have := hst rfl
          simp only [if_true]
          omega
        · simp
        · simp only [Bool.false_eq_true, if_false, Option.getD_some]
          omega
      · have h3 : ¬ count - run - 1 = 0 := by omega
        rw [if_neg hc, if_neg h3]
        have := ih (n + 1) (some (res.getD n)) carry (count - run - 1) (run + 1) ?_ ?_
        · rw [← Nat.add_assoc] at this
          rw [this]
          refine bind_congr fun x => ?_
          simp only [List.length_cons, show P + n + 1 + l.length = P + n + (l.length + 1) by omega]
        · refine ⟨by omega, by omega, ?_⟩
          rcases h2 with ⟨rfl, hn, rfl⟩ | ⟨rfl, ⟨rfl, rfl⟩ | ⟨k, rfl, hk, hk0⟩⟩
          · refine .inl ⟨rfl, by omega, ?_⟩
            by_cases h0 : n = 0
            · simp [h0]
            · simp [h0]
          · exact .inr ⟨rfl, .inr ⟨n, rfl, rfl, by omega⟩⟩
          · exact .inr ⟨rfl, .inr ⟨k, rfl, by omega, by omega⟩⟩
        · intro e
          have := hst e
          omega

theorem searchNAlg_results (p : Passed V → m Bool) (count : Nat) :
    ∀ (l : List (Passed V)) (n : Nat) (res : Option Nat) (carry : Bool) (remain run : Nat), RunState count n res carry remain run →
      Results (fun x => x.1 ≤ n + l.length ∧ (x.2.1 = true → carry = true) ∧
        ((x.2.2 = 0 ∧ x.1 < n + l.length) ∨ ∃ run', run' < count ∧ x.2.2 = count - run' ∧
          ((x.2.1 = true ∧ run' = run + l.length) ∨ (x.2.1 = false ∧ x.1 + run' = n + l.length))))
        (searchNAlg p count l n res carry remain) := by
  intro l
  induction l with
  | nil =>
    intro n res carry remain run hs
    obtain ⟨h1, rfl, h2⟩ := hs
    rcases h2 with ⟨rfl, hn, rfl⟩ | ⟨rfl, ⟨rfl, rfl⟩ | ⟨k, rfl, hk, hk0⟩⟩
    · by_cases h0 : n = 0
      · subst h0
        exact Results.pure ⟨Nat.le_refl _, id, .inr ⟨run, h1, rfl, .inl ⟨rfl, rfl⟩⟩⟩
      · rw [if_neg h0]
        exact Results.pure ⟨Nat.zero_le _, id, .inr ⟨run, h1, rfl, .inl ⟨rfl, rfl⟩⟩⟩
    · exact Results.pure ⟨Nat.le_refl _, id, .inr ⟨0, h1, rfl, .inr ⟨rfl, rfl⟩⟩⟩
    · exact Results.pure ⟨by simp only [List.length_nil]; omega, id, .inr ⟨run, h1, rfl, .inr ⟨rfl, hk⟩⟩⟩
  | cons a l ih =>
    intro n res carry remain run hs
    obtain ⟨h1, rfl, h2⟩ := hs
    refine Results.anyBind fun b => Results.ite (fun _ => Results.ite (fun h3 => Results.pure ?_) (fun h3 => ?_)) (fun _ => ?_)
    · simp only [List.length_cons]
      rcases h2 with ⟨rfl, hn, rfl⟩ | ⟨rfl, ⟨rfl, rfl⟩ | ⟨k, rfl, hk, hk0⟩⟩
      · by_cases h0 : n = 0
        · subst h0
          exact ⟨Nat.zero_le _, id, .inl ⟨h3, by simp⟩⟩
        · rw [if_neg h0]
          exact ⟨Nat.zero_le _, id, .inl ⟨h3, by simp only [Option.getD_some]; omega⟩⟩
      · exact ⟨by simp, id, .inl ⟨h3, by simp only [Option.getD_none]; omega⟩⟩
      · exact ⟨by simp only [Option.getD_some]; omega, id, .inl ⟨h3, by simp only [Option.getD_some]; omega⟩⟩
    · have := ih (n + 1) (some (res.getD n)) carry (count - run - 1) (run + 1) ?_
      · refine this.mono fun x hx => ?_
        simp only [List.length_cons]
        rw [show n + 1 + l.length = n + (l.length + 1) by omega, show run + 1 + l.length = run + (l.length + 1) by omega] at hx
        exact hx
      · refine ⟨by omega, by omega, ?_⟩
        rcases h2 with ⟨rfl, hn, rfl⟩ | ⟨rfl, ⟨rfl, rfl⟩ | ⟨k, rfl, hk, hk0⟩⟩
        · refine .inl ⟨rfl, by omega, ?_⟩
          by_cases h0 : n = 0
          · simp [h0]
          · simp [h0]
        · exact .inr ⟨rfl, .inr ⟨n, rfl, rfl, by omega⟩⟩
        · exact .inr ⟨rfl, .inr ⟨k, rfl, by omega, by omega⟩⟩
    · have := ih (n + 1) none false count 0 ⟨by omega, by omega, .inr ⟨rfl, .inl ⟨rfl, rfl⟩⟩⟩
      refine this.mono fun x hx => ?_
      simp only [List.length_cons]
      rw [show n + 1 + l.length = n + (l.length + 1) by omega] at hx
      obtain ⟨g1, g2, g3⟩ := hx
      refine ⟨g1, (fun e => by cases g2 e), ?_⟩
      rcases g3 with g3 | ⟨run', g3, g4, ⟨g5, -⟩ | g5⟩
      · exact .inl g3
      · cases g2 g5
      · exact .inr ⟨run', g3, g4, .inr g5⟩

/-- An iterator to the place `k` elements before the one with number `r`. -/
def Behind (c : Coll V) (lp : Option LIter) (k r : Nat) : Prop :=
  ∃ l n j, lp = some l ∧ c.map.Use E l.mapit n ∧ l.pos = n.seg.base j ∧ j ≤ n.seg.size ∧ c.abs.rank (some (n.seg.ty, j)) + k = r

theorem searchNIn_sim {c : Coll V} {w : World} (h : c.Inv E w) (Ts : List Ty) (p : Passed V → m Bool) (count : Nat) {last : GIter} (r0 : Nat)
    {f : Bool} {ps : List SegInfo} {r : Nat} {l : List (Ty × V)} (hc : Cut E c f ps r l) :
    ∀ (carry : Bool) (remain run N : Nat) (prev : Option LIter), EndAt E c last (r + l.length) → r = r0 + N → run < count → remain = count - run →
      run ≤ N → ((carry = true ∧ Behind E c prev run r) ∨ (carry = false ∧ run = 0)) →
      Sim (fun x n => AtRank E c x (r0 + n)) (searchNIn E c Ts last count p ps carry remain prev)
        (StdAlg.searchNFrom p count (passed Ts l) N run) := by
  induction hc with
  | nil =>
    intro carry remain run N prev he hr _ _ _ _
    refine Sim.pure ?_
    have := he.atRank
    rw [hr] at this
    exact this
  | @cons f i is n a b r l hp hrk hz hc ih =>
    intro carry remain run N prev he hr hrun hrem hN hs
    subst hrem
    obtain ⟨rg, h1, h2, h3, h4⟩ := hp.rangeP E (Inv.core E h) Ts
    have hle := hp.le
    have hle' := hp.le'
    have hlen := sliceP_length (Ts := Ts) E hp
    have hpos : ∀ k, (n.seg.base (a + k) ≠ i.last.pos) ↔ k ≠ b - a := by
      intro k
      rw [hp.last, ne_eq, base_inj]
      omega
    have hst : RunState count 0 none carry (count - run) run := by
      refine ⟨hrun, rfl, ?_⟩
      rcases hs with ⟨rfl, -⟩ | ⟨rfl, h0⟩
      · exact .inl ⟨rfl, Nat.zero_le _, rfl⟩
      · exact .inr ⟨rfl, .inl ⟨rfl, h0⟩⟩
    rw [passed_append, searchNIn]
    have heq := searchNAlg_eq p count (passed Ts l) N (N - run) (passed Ts (sliceOf n.seg a (b - a))) 0 none carry (count - run) run hst
      (fun _ => by omega)
    rw [Nat.add_zero] at heq
    rw [heq]
    refine Sim.defd h1 ?_
    have hres := searchNAlg_results p count (passed Ts (sliceOf n.seg a (b - a))) 0 none carry (count - run) run hst
    simp only [hlen, Nat.zero_add] at hres ⊢
    rw [h3]
    refine hres.sim.bind fun x y hxy => ?_
    obtain ⟨rfl, g1, g2, g3⟩ := hxy
    refine Sim.defd (h2.at E (Inv.core E h) (k := x.1) (by omega)) ?_
    have he' : EndAt E c last (r + (b - a) + l.length) := by
      rw [List.length_append, ← Nat.add_assoc] at he
      rw [passed_length] at hlen
      rw [hlen] at he
      exact he
    simp only [hpos]
    rcases g3 with ⟨g3, g4⟩ | ⟨run', g3, g4, g5⟩
    · -- the run is complete
      rw [if_pos (by omega), if_pos g3, if_pos g3]
      by_cases hx : x.2.1 = true
      · simp only [hx, if_true]
        rcases hs with ⟨-, l0, n0, j, e1, e2, e3, e4, e5⟩ | ⟨e, -⟩
        · refine Sim.defd e1 ?_
          obtain ⟨g, q1, q2⟩ := iteratorFrom_eq E h e2 e4 he.usable he.node
          have : l0 = ⟨l0.mapit, n0.seg.base j⟩ := by rw [← e3]
          rw [this]
          refine Sim.congr (y := pure (N - run) >>= pure) ?_ (by simp)
          rw [q1, defd_some, pure_bind]
          refine Sim.pure ?_
          rw [show r0 + (N - run) = c.abs.rank (some (n0.seg.ty, j)) by omega]
          exact q2
        · rw [g2 hx] at e; cases e
      · simp only [hx, Bool.false_eq_true, if_false]
        obtain ⟨g, q1, q2⟩ := iteratorFrom_eq E h (it := rg.mapit) (n := n) (h4 ▸ hp.use) (k := a + x.1) (by omega) he.usable he.node
        refine Sim.defd rfl ?_
        rw [q1, defd_some]
        refine Sim.pure ?_
        rw [rank_add E h.map hp.use.mem, hrk] at q2
        rw [show r0 + (N + x.1) = r + x.1 by omega]
        exact q2
    · have h0 : ¬ x.2.2 = 0 := by omega
      have hrun' : count - x.2.2 = run' := by omega
      simp only [if_neg h0, hrun']
      rcases g5 with ⟨hx, g5⟩ | ⟨hx, g5⟩
      · -- the run goes on from the segments before
        have hb : Behind E c prev run' (r + (b - a)) := by
          rcases hs with ⟨-, l0, n0, j, e1, e2, e3, e4, e5⟩ | ⟨e, -⟩
          · exact ⟨l0, n0, j, e1, e2, e3, e4, by omega⟩
          · rw [g2 hx] at e; cases e
        have := ih x.2.1 x.2.2 run' (N + (b - a)) prev he' (by omega) g3 g4 (by omega) (.inl ⟨hx, hb⟩)
        simp only [hx] at this ⊢
        split
        · exact this
        · exact this
      · by_cases hend : x.1 = b - a
        · have hr0 : run' = 0 := by omega
          rw [if_neg (by omega)]
          exact ih x.2.1 x.2.2 run' (N + (b - a)) prev he' (by omega) g3 g4 (by omega) (.inr ⟨hx, hr0⟩)
        · rw [if_pos hend, if_pos hx]
          refine ih true x.2.2 run' (N + (b - a)) _ he' (by omega) g3 g4 (by omega) (.inl ⟨rfl, ?_⟩)
          refine ⟨_, n, a + x.1, rfl, h4 ▸ hp.use, rfl, by omega, ?_⟩
          rw [rank_add E h.map hp.use.mem, hrk]
          omega

/-- `search_n`. -/
theorem searchN_sim {c : Coll V} {w : World} (h : c.Inv E w) (Ts : List Ty) (p : Passed V → m Bool) (count : Int) {it last : GIter} {r : Nat}
    {q : Spec.State.Pos} (hi : AtRank E c it r) (hl : c.At E last q) (hr : r ≤ c.abs.rank q) :
    Sim (fun x n => AtRank E c x (r + n)) (searchN E c Ts it last count p) (StdAlg.searchN p count (passed Ts ((before c q).drop r))) := by
  unfold searchN StdAlg.searchN
  by_cases h0 : count ≤ 0
  · rw [if_pos h0, if_pos h0]
    exact Sim.pure hi
  · rw [if_neg h0, if_neg h0]
    obtain ⟨ps, h1, h2, h3⟩ := cut_from E h hi hl hr
    refine Sim.defd h1 (searchNIn_sim E h Ts p _ r h2 false _ 0 0 none h3 rfl (by omega) rfl (Nat.le_refl _) (.inr ⟨rfl, rfl⟩))

/-! ### sample -/

theorem sampleAlg_eq (out : O → Passed V → m O) (rnd : (j : Nat) → m (Fin (j + 1))) (l' : List (Passed V)) :
    ∀ (l : List (Passed V)) (o : O) (n : Nat), StdAlg.sample out rnd (l ++ l') n o = sampleAlg out rnd l o n (l ++ l').length >>= fun x =>
      StdAlg.sample out rnd l' x.2.1 x.1 := by
  intro l
  induction l with
  | nil => intro o n; simp [sampleAlg]
  | cons a l ih =>
    intro o n
    cases n with
    | zero =>
      simp only [List.cons_append, StdAlg.sample, sampleAlg, if_true, pure_bind]
      cases l' <;> rfl
    | succ n =>
      have : (a :: (l ++ l')).length - 1 = (l ++ l').length := rfl
      simp only [List.cons_append, StdAlg.sample, sampleAlg, Nat.succ_ne_zero, if_false, bind_assoc, Nat.add_sub_cancel, this]
      refine bind_congr fun r => ?_
      split
      · simp only [ih, bind_assoc]
      · simp only [ih]

theorem sampleAlg_results (out : O → Passed V → m O) (rnd : (j : Nat) → m (Fin (j + 1))) :
    ∀ (l : List (Passed V)) (o : O) (n k : Nat), l.length ≤ k → Results (fun x => x.2.1 = 0 ∨ x.2.2 = k - l.length) (sampleAlg out rnd l o n k) := by
  intro l
  induction l with
  | nil => intro o n k _; exact Results.pure (.inr rfl)
  | cons a l ih =>
    intro o n k hk
    simp only [List.length_cons] at hk
    rw [sampleAlg]
    refine Results.ite (fun h0 => Results.pure (.inl h0)) (fun _ => Results.anyBind fun r => Results.ite (fun _ => Results.anyBind fun o => ?_) (fun _ => ?_))
    · refine (ih o (n - 1) (k - 1) (by omega)).mono fun x hx => hx.imp id fun e => ?_
      rw [e, List.length_cons]; omega
    · refine (ih o n (k - 1) (by omega)).mono fun x hx => hx.imp id fun e => ?_
      rw [e, List.length_cons]; omega

theorem sampleIn_sim {c : Coll V} {w : World} (h : c.Core E w) (Ts : List Ty) (out : O → Passed V → m O) (rnd : (j : Nat) → m (Fin (j + 1)))
    {f : Bool} {ps : List SegInfo} {r : Nat} {l : List (Ty × V)} (hc : Cut E c f ps r l) :
    ∀ (o : O) (n : Nat), Sim Eq (sampleIn E c Ts out rnd ps o n l.length) (StdAlg.sample out rnd (passed Ts l) n o) := by
  induction hc with
  | nil => intro o n; exact Sim.pure rfl
  | @cons f i is n a b r l hp hrk hz hc ih =>
    intro o k
    obtain ⟨rg, h1, h2, h3, h4⟩ := hp.rangeP E h Ts
    have hlen := sliceP_length (Ts := Ts) E hp
    rw [passed_append, sampleAlg_eq, sampleIn]
    refine Sim.defd h1 ?_
    have hk : (sliceOf n.seg a (b - a) ++ l).length = (passed Ts (sliceOf n.seg a (b - a)) ++ passed Ts l).length := by
      simp only [List.length_append, passed_length]
    rw [h3, hk]
    refine (sampleAlg_results out rnd _ o k _ (by rw [List.length_append]; omega)).sim.bind fun x y hxy => ?_
    obtain ⟨rfl, hx⟩ := hxy
    by_cases h0 : x.2.1 = 0
    · rw [if_pos h0, h0]
      have : StdAlg.sample out rnd (passed Ts l) 0 x.1 = pure x.1 := by
        cases passed Ts l <;> rfl
      rw [this]
      exact Sim.pure rfl
    · rw [if_neg h0]
      have := hx.resolve_left h0
      rw [List.length_append, Nat.add_sub_cancel_left, passed_length] at this
      rw [this]
      exact ih _ _

end Algo
end PolyColl
