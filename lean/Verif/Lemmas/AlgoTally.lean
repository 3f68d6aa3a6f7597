import Verif.Lemmas.Calls
import Verif.Lemmas.StdPerm
import Verif.Lemmas.AlgoUnique
/-! # How often the algorithms call their functors -/

namespace PolyColl
namespace StdAlg
variable {S ε A B : Type}

theorem permPart_calls (P : A → A → ExceptT ε (StateM S) Bool) (Q : A → B → ExceptT ε (StateM S) Bool) (bs : List B) :
    ∀ (k : Nat) (pre l : List A), l.length = k →
      Calls (k * (pre.length + k + bs.length)) (fun _ _ => True) (permPart (counted2 P) (counted2 Q) bs k pre l)
  | 0, pre, l, _ => by unfold permPart; exact Calls.pure trivial
  | k + 1, pre, [], _ => Calls.pure trivial
  | k + 1, pre, a :: l, h => by
    have hl : l.length = k := by simpa using h
    have e : (k + 1) * (pre.length + (k + 1) + bs.length) = k * ((pre ++ [a]).length + k + bs.length) + (pre.length + (k + 1) + bs.length) := by
      rw [List.length_append, List.length_singleton, Nat.succ_mul, show pre.length + 1 + k = pre.length + (k + 1) by omega]
    have hrec := permPart_calls P Q bs k (pre ++ [a]) l hl
    unfold permPart
    rw [e]
    refine (findIf_calls (P a) pre).bind (by omega) fun f j hj _ => Calls.ite (fun _ => hrec.mono (by omega) fun _ _ _ _ => trivial) fun _ => ?_
    refine (countIf_calls (Q a) bs).bind (by omega) fun i j' hj' _ => Calls.ite (fun _ => Calls.pure trivial) fun _ => ?_
    refine (countIf_calls (P a) (a :: l)).bind (by simp only [List.length_cons]; omega) fun i' j'' hj'' _ => Calls.ite (fun _ => Calls.pure trivial) fun _ => ?_
    simp only [List.length_cons] at hj''
    exact hrec.mono (by omega) fun _ _ _ _ => trivial

/-- `mismatch` for ranges that match. -/
theorem mismatch_both {P : A → B → Bool} {l : List A} {bs : List B} (h : Both (fun a b => P a b = true) l bs) :
    Calls l.length (fun r k => k = l.length ∧ r = (l.length, [])) (mismatch (counted2 fun a b => (pure (P a b) : ExceptT ε (StateM S) Bool)) l bs) := by
  induction h with
  | nil => exact Calls.pure ⟨rfl, rfl⟩
  | @cons a b l bs hab _ ih =>
    unfold mismatch
    refine Calls.bind (u := 1) (Q := fun r k => r = true ∧ k = 1) ?_ (by simp) fun r k _ hk => ?_
    · exact fun s n => ⟨1, Nat.le_refl _, rfl, fun r hr => by cases hr; exact ⟨hab, rfl⟩⟩
    · obtain ⟨rfl, rfl⟩ := hk
      rw [if_pos rfl]
      refine (ih.bind (Nat.le_refl _) fun r k _ hr => Calls.pure ?_).mono (by simp) fun _ _ _ h => h
      obtain ⟨h1, h2⟩ := hr
      rw [h2, List.length_cons]
      exact ⟨by omega, rfl⟩

end StdAlg

open Prog
namespace Algo
open Coll StdAlg
variable {V : Type} (E : Env V) {S ε B O α β γ : Type}

/-- It is defined, and there are at most `u` calls; if it returns `a` after `k` calls then `Q a k`. -/
def Tally (u : Nat) (Q : α → Nat → Prop) (x : OptionT (Watched S ε) α) : Prop :=
  Calls u (fun r k => ∃ a, r = some a ∧ Q a k) x.run

theorem Tally.pure {u : Nat} {Q : α → Nat → Prop} {a : α} (h : Q a 0) : Tally u Q (Pure.pure a : OptionT (Watched S ε) α) :=
  Calls.pure ⟨a, rfl, h⟩

theorem Tally.mono {u u' : Nat} {Q Q' : α → Nat → Prop} {x : OptionT (Watched S ε) α} (h : Tally u Q x) (hu : u ≤ u')
    (hq : ∀ a k, k ≤ u → Q a k → Q' a k) : Tally u' Q' x :=
  Calls.mono h hu fun _ k hk ⟨a, ha, hqa⟩ => ⟨a, ha, hq a k hk hqa⟩

theorem Tally.bind {u v : Nat} {Q : α → Nat → Prop} {Q' : β → Nat → Prop} {x : OptionT (Watched S ε) α} {f : α → OptionT (Watched S ε) β}
    (h : Tally u Q x) (hv : u ≤ v) (hf : ∀ a k, k ≤ u → Q a k → Tally (v - k) (fun b j => Q' b (k + j)) (f a)) : Tally v Q' (x >>= f) := by
  unfold Tally
  rw [OptionT.run_bind]
  refine Calls.bind h hv fun r k hk hr => ?_
  obtain ⟨a, rfl, hq⟩ := hr
  exact hf a k hk hq

theorem Tally.defd {u : Nat} {Q : α → Nat → Prop} {o : Option γ} {c : γ} {f : γ → OptionT (Watched S ε) α} (ho : o = some c) (h : Tally u Q (f c)) :
    Tally u Q (Algo.defd o >>= f) := by
  subst ho
  rw [defd_some, pure_bind]
  exact h

theorem Tally.call {u : Nat} {Q : α → Nat → Prop} {x : Watched S ε α} (h : Calls u Q x) : Tally u Q (Algo.call x) :=
  Calls.map h fun a _ _ hq => ⟨a, rfl, hq⟩

/-- What has the effects of `y` makes as many calls. -/
theorem Sim.tally {R : α → β → Prop} {u : Nat} {Q : β → Nat → Prop} {x : OptionT (Watched S ε) α} {y : Watched S ε β} (h : Sim R x y) (hy : Calls u Q y) :
    Tally u (fun a k => ∃ b, R a b ∧ Q b k) x := by
  obtain ⟨z, h1, h2⟩ := h
  unfold Tally
  rw [h1]
  rw [h2] at hy
  intro s n
  obtain ⟨k, g1, g2, g3⟩ := hy s n
  have e : ∀ {γ : Type} (f : {p : α × β // R p.1 p.2} → γ), (f <$> z).run (s, n) =
      match z.run (s, n) with
      | (.ok a, s') => (.ok (f a), s')
      | (.error e, s') => (.error e, s') := by
    intro γ f
    rw [map_eq_pure_bind, StdAlg.run_bind]
    generalize z.run (s, n) = r
    obtain ⟨r, s'⟩ := r
    cases r <;> rfl
  rw [e] at g2 g3 ⊢
  generalize z.run (s, n) = r at g2 g3
  obtain ⟨r, s'⟩ := r
  cases r with
  | error e => exact ⟨k, g1, g2, fun a ha => by cases ha⟩
  | ok a => exact ⟨k, g1, g2, fun b hb => by cases hb; exact ⟨_, rfl, _, a.2, g3 _ rfl⟩⟩

theorem skipEqual_calls (P : Passed V → ExceptT ε (StateM S) Bool) (l : List (Passed V)) :
    Calls l.length (fun l' k => l'.length ≤ l.length ∧ k = l.length - (l'.length - 1)) (skipEqual (counted P) l) := by
  induction l with
  | nil => exact Calls.pure ⟨Nat.le_refl _, rfl⟩
  | cons a l ih =>
    refine Calls.next (by simp) fun b => Calls.ite (fun _ => ?_) fun _ => Calls.pure ?_
    · refine ih.mono (by simp) fun l' k _ h => ?_
      simp only [List.length_cons]
      omega
    · simp

theorem uniqueCopyIn_tally {c : Coll V} {w : World} (h : c.Core E w) (Ts : List Ty) (out : O → Passed V → ExceptT ε (StateM S) O)
    (P : Passed V → Passed V → ExceptT ε (StateM S) Bool) {f : Bool} {ps : List SegInfo} {r : Nat} {l : List (Ty × V)} (hc : Cut E c f ps r l) :
    (∀ o s, Tally (l.length - 1) (fun _ k => k = l.length - 1) (uniqueCopyIn E c Ts (silent2 out) (counted2 P) ps o (false, s))) ∧
    (∀ o s z, Holds E c s z → Tally l.length (fun _ k => k = l.length) (uniqueCopyIn E c Ts (silent2 out) (counted2 P) ps o (true, s))) := by
  induction hc with
  | nil => exact ⟨fun o s => Tally.pure rfl, fun o s z _ => Tally.pure rfl⟩
  | @cons f i is n a b r l hp hrk hz hc ih =>
    obtain ⟨ih1, ih2⟩ := ih
    have hle := hp.le
    have hle' := hp.le'
    obtain ⟨rg, h1, h2, h3, h4⟩ := hp.rangeP E h Ts
    have hlen := sliceP_length (Ts := Ts) E hp
    rw [← h3] at hlen
    have hln : (sliceOf n.seg a (b - a)).length = rg.vals.length := by rw [h3, passed_length]
    rw [List.length_append, hln]
    by_cases hab : a < b
    · obtain ⟨k, v, hk1, hk2, hk3⟩ := sliceOf_last hab hle'
      have hprev : Holds E c (some ⟨rg.mapit, n.seg.base (a + (rg.vals.length - 1))⟩) (n.seg.ty, v) := by
        refine ⟨_, n, b - 1, rfl, by rw [h4]; exact hp.use, ?_, hk3, rfl⟩
        show n.seg.base _ = _
        rw [hlen, show a + (b - a - 1) = b - 1 by omega]
      have hat := h2.at E h (k := rg.vals.length - 1) (by omega)
      have hpos : 0 < rg.vals.length := by omega
      refine ⟨fun o s => ?_, fun o s z hs => ?_⟩
      · rw [uniqueCopyIn]
        refine Tally.defd h1 ?_
        refine Tally.bind (u := rg.vals.length - 1) (Q := fun x k => k = rg.vals.length - 1 ∧ x.2 = (true, some ⟨rg.mapit, n.seg.base (a + (rg.vals.length - 1))⟩))
          ?_ (by omega) fun x k hk hx => ?_
        · unfold uniqueCopyAlg
          simp only [Bool.false_eq_true, if_false, pure_bind]
          cases hv : rg.vals with
          | nil => rw [hv] at hpos; cases hpos
          | cons x xs =>
            rw [hv] at hat
            refine (Tally.call (uniqueCopy_calls out P (x :: xs) o)).bind (Nat.le_refl _) fun o k _ hk => ?_
            exact Tally.defd hat (Tally.pure ⟨by omega, rfl⟩)
        · rw [hx.2]
          exact (ih2 _ _ _ hprev).mono (by omega) fun _ j _ hj => by omega
      · rw [uniqueCopyIn]
        refine Tally.defd h1 ?_
        obtain ⟨l0, n0, j, e1, e2, e3, e4, e5⟩ := id hs
        have hz' := derefAs_void E h Ts e2 e3 e4
        refine Tally.bind (u := rg.vals.length)
          (Q := fun x k => k = rg.vals.length ∧ ∃ s' z', x.2 = (true, s') ∧ Holds E c s' z')
          ?_ (by omega) fun x k hk hx => ?_
        · unfold uniqueCopyAlg
          simp only [if_true]
          cases hv : rg.vals with
          | nil => rw [hv] at hpos; cases hpos
          | cons x xs =>
            simp only [bind_assoc]
            refine Tally.defd e1 (Tally.defd hz' ?_)
            refine (Tally.call (skipEqual_calls _ (x :: xs))).bind (Nat.le_refl _) fun l' k hk hl' => ?_
            cases l' with
            | nil => exact Tally.pure ⟨by simp only [List.length_nil] at hl'; omega, s, z, rfl, hs⟩
            | cons y ys =>
              rw [hv] at hat
              refine (Tally.call (uniqueCopy_calls out P (y :: ys) o)).bind ?_ fun o k' _ hk' => ?_
              · simp only [List.length_cons] at hl' ⊢; omega
              · refine Tally.defd hat (Tally.pure ⟨?_, _, _, rfl, hv ▸ hprev⟩)
                simp only [List.length_cons] at hl' hk' ⊢
                omega
        · obtain ⟨rfl, s', z', hx2, hh⟩ := hx
          rw [hx2]
          exact (ih2 _ _ _ hh).mono (by omega) fun _ j _ hj => by omega
    · have h0 : rg.vals.length = 0 := by omega
      have hv : rg.vals = [] := List.length_eq_zero_iff.1 h0
      refine ⟨fun o s => ?_, fun o s z hs => ?_⟩
      · rw [uniqueCopyIn]
        refine Tally.defd h1 ?_
        simp only [uniqueCopyAlg, hv, Bool.false_eq_true, if_false, pure_bind, List.length_nil, Nat.zero_add]
        exact ih1 o s
      · rw [uniqueCopyIn]
        refine Tally.defd h1 ?_
        simp only [uniqueCopyAlg, hv, if_true, pure_bind, List.length_nil, Nat.zero_add]
        exact ih2 o s z hs

theorem permSuffix_tally {c : Coll V} {w : World} (h : c.Inv E w) (Ts : List Ty) (P : Passed V → Passed V → ExceptT ε (StateM S) Bool)
    (Q : Passed V → B → ExceptT ε (StateM S) Bool) {it last : GIter} {r : Nat} {q : Spec.State.Pos} (hi : AtRank E c it r) (hl : c.At E last q)
    (hr : r ≤ c.abs.rank q) (bs : List B) (hb : bs.length = c.abs.rank q - r) :
    Tally (2 * ((c.abs.rank q - r) * (c.abs.rank q - r))) (fun _ _ => True) (permSuffix E c Ts it last bs (counted2 P) (counted2 Q)) := by
  have hlen : (passed Ts ((before c q).drop r)).length = c.abs.rank q - r := by
    rw [passed_length, List.length_drop, before_length E h.map hl]
  have hs := permSuffix_sim (m := Watched S ε) E h Ts (counted2 P) (counted2 Q) hi hl hr bs
  have hc := permPart_calls P Q bs _ [] _ hlen
  rw [passed_length] at hlen
  rw [hlen] at hs
  refine (Sim.tally hs hc).mono ?_ fun _ _ _ _ => trivial
  rw [hb, List.length_nil, Nat.zero_add, ← Nat.two_mul, Nat.mul_left_comm]
  exact Nat.le_refl _

theorem isPermutation4_tally {c : Coll V} {w : World} (h : c.Inv E w) (Ts : List Ty) (P : Passed V → Passed V → ExceptT ε (StateM S) Bool)
    (Q : Passed V → B → ExceptT ε (StateM S) Bool) {it last : GIter} {r : Nat} {q : Spec.State.Pos} (hi : AtRank E c it r) (hl : c.At E last q)
    (hr : r ≤ c.abs.rank q) (bs : List B) {N : Nat} (hN : c.abs.rank q - r = N) :
    Tally (N + 2 * (N * N)) (fun _ _ => True) (isPermutation4 E c Ts it last bs (counted2 P) (counted2 Q)) := by
  have hlen : (passed Ts ((before c q).drop r)).length = N := by
    rw [passed_length, List.length_drop, before_length E h.map hl, hN]
  have hm := Sim.tally (mismatch4_from (m := Watched S ε) E h Ts (counted2 Q) hi hl hr bs) (mismatch_calls Q _ bs)
  unfold isPermutation4
  refine hm.bind (by omega) fun x k hk hx => ?_
  obtain ⟨y, ⟨hat, hx2, -⟩, hy1, hy2, hy3, hy4⟩ := hx
  rw [hlen] at hk hy1 hy2
  obtain ⟨pos, hpos, hrk⟩ := id hat
  refine Tally.defd (fastDistance_eq E h hpos hl (by omega)) (?_ : Tally _ _ (if _ then _ else _))
  rw [hrk]
  by_cases hd : c.abs.rank q - (r + y.1) = x.2.length
  · rw [if_neg (by simpa using hd)]
    refine (permSuffix_tally E h Ts P Q hat hl (by omega) _ hd.symm).mono ?_ fun _ _ _ _ => trivial
    have : (c.abs.rank q - (r + y.1)) * (c.abs.rank q - (r + y.1)) ≤ N * N := Nat.mul_le_mul (by omega) (by omega)
    omega
  · rw [if_pos hd]
    exact Tally.pure trivial

theorem isPermutation4_equal {c : Coll V} {w : World} (h : c.Inv E w) (Ts : List Ty) (P : Passed V → Passed V → ExceptT ε (StateM S) Bool)
    {Q : Passed V → B → Bool} {it last : GIter} {r : Nat} {q : Spec.State.Pos} (hi : AtRank E c it r) (hl : c.At E last q)
    (hr : r ≤ c.abs.rank q) {bs : List B} (hb : Both (fun a b => Q a b = true) (passed Ts ((before c q).drop r)) bs) {N : Nat}
    (hN : c.abs.rank q - r = N) :
    Tally N (fun b k => b = true ∧ k = N) (isPermutation4 E c Ts it last bs (counted2 P) (counted2 fun a b => Pure.pure (Q a b))) := by
  have hlen : (passed Ts ((before c q).drop r)).length = N := by
    rw [passed_length, List.length_drop, before_length E h.map hl, hN]
  have hm := Sim.tally (mismatch4_from (m := Watched S ε) E h Ts _ hi hl hr bs) (mismatch_both hb)
  unfold isPermutation4
  refine hm.bind (by omega) fun x k hk hx => ?_
  obtain ⟨y, ⟨hat, hx2, -⟩, hy1, hy2⟩ := hx
  rw [hlen] at hk hy1 hy2
  subst hy2
  dsimp only at hat hx2
  obtain ⟨pos, hpos, hrk⟩ := id hat
  refine Tally.defd (fastDistance_eq E h hpos hl (by omega)) (?_ : Tally _ _ (if _ then _ else _))
  have hd : c.abs.rank q - (r + N) = x.2.length := by rw [hx2, List.length_nil]; omega
  rw [hrk, if_neg (by simpa using hd)]
  have h0 : (before c q).drop (r + N) = [] := List.drop_eq_nil_iff.2 (by rw [before_length E h.map hl]; omega)
  have hs := permSuffix_sim (m := Watched S ε) E h Ts (counted2 P) (counted2 fun a b => Pure.pure (Q a b)) hat hl (by omega) x.2
  rw [h0] at hs
  refine (Sim.tally hs (Calls.pure (u := 0) (Q := fun b k => b = true ∧ k = 0) ⟨rfl, rfl⟩)).mono (Nat.zero_le _) fun b j _ ⟨b', e, h1, h2⟩ => ?_
  exact ⟨e ▸ h1, by omega⟩

theorem isPermutation3_tally {c : Coll V} {w : World} (h : c.Inv E w) (Ts : List Ty) (P : Passed V → Passed V → ExceptT ε (StateM S) Bool)
    (Q : Passed V → B → ExceptT ε (StateM S) Bool) {it last : GIter} {r : Nat} {q : Spec.State.Pos} (hi : AtRank E c it r) (hl : c.At E last q)
    (hr : r ≤ c.abs.rank q) (bs : List B) {N : Nat} (hN : c.abs.rank q - r = N) (hb : N ≤ bs.length) :
    Tally (N + 2 * (N * N)) (fun _ _ => True) (isPermutation3 E c Ts it last bs (counted2 P) (counted2 Q)) := by
  have hlen : (passed Ts ((before c q).drop r)).length = N := by
    rw [passed_length, List.length_drop, before_length E h.map hl, hN]
  have hm := Sim.tally (mismatch3_from (m := Watched S ε) E h Ts (counted2 Q) hi hl hr bs (by omega)) (mismatch_calls Q _ bs)
  unfold isPermutation3
  refine hm.bind (by omega) fun x k hk hx => ?_
  obtain ⟨y, ⟨hat, hx2, -⟩, hy1, hy2, hy3, hy4⟩ := hx
  rw [hlen] at hk hy1 hy2
  obtain ⟨pos, hpos, hrk⟩ := id hat
  refine Tally.defd (fastDistance_eq E h hpos hl (by omega)) ?_
  rw [hrk]
  refine Tally.defd (if_pos (by rw [hx2, hy3]; omega)) ?_
  refine (permSuffix_tally E h Ts P Q hat hl (by omega) _ (by rw [List.length_take, hx2, hy3]; omega)).mono ?_ fun _ _ _ _ => trivial
  have : (c.abs.rank q - (r + y.1)) * (c.abs.rank q - (r + y.1)) ≤ N * N := Nat.mul_le_mul (by omega) (by omega)
  omega

end Algo
end PolyColl
