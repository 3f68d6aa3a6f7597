import Verif.Lemmas.AlgoPerm
import Verif.Spec.Ranges
/-!
# What the scan of is_permutation decides
-/

namespace PolyColl
namespace StdAlg
variable {m : Type → Type} [Monad m] [LawfulMonad m] {A B : Type}

theorem findIf_pure (P : A → Bool) (l : List A) : findIf (m := m) (fun a => pure (P a)) l = pure (l.findIdx P) := by
  induction l with
  | nil => rfl
  | cons a l ih =>
    rw [findIf, pure_bind, ih, List.findIdx_cons]
    cases P a <;> simp

theorem countIf_pure (P : A → Bool) (l : List A) : countIf (m := m) (fun a => pure (P a)) l = pure (l.countP P) := by
  induction l with
  | nil => rfl
  | cons a l ih =>
    rw [countIf, pure_bind, ih, List.countP_cons]
    cases P a <;> simp

theorem mismatch_pure (Q : A → B → Bool) (l : List A) (bs : List B) :
    ∃ n, mismatch (m := m) (fun a b => pure (Q a b)) l bs = pure (n, bs.drop n) ∧ n ≤ l.length ∧ n ≤ bs.length ∧
      Both (fun a b => Q a b = true) (l.take n) (bs.take n) ∧
      (∀ a b, l[n]? = some a → bs[n]? = some b → Q a b = false) := by
  induction l generalizing bs with
  | nil => exact ⟨0, by simp [mismatch], by simp, by simp, by simpa using Both.nil, by simp⟩
  | cons a l ih =>
    cases bs with
    | nil => exact ⟨0, by simp [mismatch], by simp, by simp, by simpa using Both.nil, by simp⟩
    | cons b bs =>
      cases hq : Q a b with
      | false => exact ⟨0, by simp [mismatch, hq], by simp, by simp, by simpa using Both.nil, by simp [hq]⟩
      | true =>
        obtain ⟨n, h1, h2, h3, h4, h5⟩ := ih bs
        refine ⟨n + 1, by simp [mismatch, hq, h1], by simpa using h2, by simpa using h3, ?_, by simpa using h5⟩
        exact Both.cons hq h4

omit [Monad m] [LawfulMonad m]

theorem Both.length_eq {R : A → B → Prop} {l : List A} {bs : List B} (h : Both R l bs) : l.length = bs.length := by
  induction h with
  | nil => rfl
  | cons _ _ ih => rw [List.length_cons, List.length_cons, ih]

theorem count_pairs {P : A → A → Bool} {Q : A → B → Bool} (h : Matching P Q) {l : List A} {bs : List B}
    (hl : Both (fun a b => Q a b = true) l bs) (a : A) : bs.countP (Q a) = l.countP (P a) := by
  induction hl with
  | nil => rfl
  | @cons x y l bs hxy _ ih =>
    rw [List.countP_cons, List.countP_cons, ih]
    have : Q a y = P a x := by
      apply Bool.eq_iff_iff.2
      exact ⟨fun g => h.join _ _ _ g hxy, fun g => h.left _ _ _ (h.symm _ _ g) hxy⟩
    rw [this]

theorem forall2_append {R : A → B → Prop} {l l' : List A} {b b' : List B} (h : Both R l b) (h' : Both R l' b') :
    Both R (l ++ l') (b ++ b') := by
  induction h with
  | nil => exact h'
  | cons h _ ih => exact Both.cons h ih

theorem forall2_split {R : A → B → Prop} {l : List A} {b b' : List B} (h : Both R l (b ++ b')) :
    ∃ u v, l = u ++ v ∧ Both R u b ∧ Both R v b' := by
  induction b generalizing l with
  | nil => exact ⟨[], l, rfl, .nil, h⟩
  | cons y b ih =>
    cases h with
    | cons h1 h2 =>
      obtain ⟨u, v, rfl, h3, h4⟩ := ih h2
      exact ⟨_ :: u, v, rfl, .cons h1 h3, h4⟩

theorem permuted_count {P : A → A → Bool} {Q : A → B → Bool} (h : Matching P Q) {l : List A} {bs : List B} :
    Permuted Q l bs ↔ l.length = bs.length ∧ ∀ a ∈ l, bs.countP (Q a) = l.countP (P a) := by
  constructor
  · rintro ⟨l', h1, h2⟩
    refine ⟨by rw [← h1.length_eq, h2.length_eq], fun a _ => ?_⟩
    rw [count_pairs h h2, h1.countP_eq]
  · rintro ⟨h1, h2⟩
    induction l generalizing bs with
    | nil =>
      rw [List.length_eq_zero_iff.1 h1.symm]
      exact ⟨[], List.Perm.refl _, .nil⟩
    | cons a l ih =>
      have hpos : 0 < bs.countP (Q a) := by
        rw [h2 a (by simp), List.countP_cons, h.refl]
        simp
      obtain ⟨b, hb, hq⟩ := List.countP_pos_iff.1 hpos
      obtain ⟨u, v, rfl⟩ := List.append_of_mem hb
      obtain ⟨l', g1, g2⟩ := ih (bs := u ++ v) (by simp only [List.length_append, List.length_cons] at h1 ⊢; omega) (by
        intro x hx
        have := h2 x (List.mem_cons_of_mem _ hx)
        rw [List.countP_append, List.countP_cons, List.countP_cons] at this
        rw [List.countP_append]
        have he : Q x b = P x a := by
          apply Bool.eq_iff_iff.2
          exact ⟨fun g => h.join _ _ _ g hq, fun g => h.left _ _ _ (h.symm _ _ g) hq⟩
        rw [he] at this
        omega)
      obtain ⟨s, t, rfl, g3, g4⟩ := forall2_split g2
      refine ⟨s ++ a :: t, ?_, forall2_append g3 (.cons hq g4)⟩
      exact List.perm_middle.trans (List.Perm.cons a g1)

/-- A matching prefix does not matter. -/
theorem permuted_suffix {P : A → A → Bool} {Q : A → B → Bool} (h : Matching P Q) {l l' : List A} {bs bs' : List B}
    (hp : Both (fun a b => Q a b = true) l bs) : Permuted Q (l ++ l') (bs ++ bs') ↔ Permuted Q l' bs' := by
  constructor
  · intro g
    rw [permuted_count h] at g ⊢
    have := hp.length_eq
    simp only [List.length_append] at g
    refine ⟨by omega, fun a ha => ?_⟩
    have g2 := g.2 a (List.mem_append.2 (.inr ha))
    rw [List.countP_append, List.countP_append, count_pairs h hp] at g2
    omega
  · rintro ⟨k, h1, h2⟩
    exact ⟨l ++ k, List.Perm.append_left l h1, forall2_append hp h2⟩

/-- The scan without effects. -/
def permOk (P : A → A → Bool) (Q : A → B → Bool) (bs : List B) : List A → List A → Bool
  | _, [] => true
  | pre, a :: l => if pre.any (P a) then permOk P Q bs (pre ++ [a]) l
    else decide (bs.countP (Q a) = (a :: l).countP (P a)) && permOk P Q bs (pre ++ [a]) l

theorem permOk_iff {P : A → A → Bool} {Q : A → B → Bool} (h : Matching P Q) (bs : List B) (l pre : List A)
    (hpre : ∀ a ∈ pre, bs.countP (Q a) = (pre ++ l).countP (P a)) :
    permOk P Q bs pre l = true ↔ ∀ a ∈ pre ++ l, bs.countP (Q a) = (pre ++ l).countP (P a) := by
  induction l generalizing pre with
  | nil => simpa [permOk] using hpre
  | cons a l ih =>
    have e : pre ++ a :: l = pre ++ [a] ++ l := by simp
    have hstep : bs.countP (Q a) = (pre ++ a :: l).countP (P a) →
        (permOk P Q bs (pre ++ [a]) l = true ↔ ∀ x ∈ pre ++ a :: l, bs.countP (Q x) = (pre ++ a :: l).countP (P x)) := by
      intro ha
      rw [e]
      refine ih (pre ++ [a]) fun x hx => ?_
      rw [← e]
      rcases List.mem_append.1 hx with hx | hx
      · exact hpre x hx
      · rw [List.mem_singleton.1 hx]; exact ha
    rw [permOk]
    by_cases hany : pre.any (P a) = true
    · rw [if_pos hany]
      obtain ⟨x, hx, hax⟩ := List.any_eq_true.1 hany
      refine hstep ?_
      have hP : P a = P x := by
        funext y
        apply Bool.eq_iff_iff.2
        exact ⟨fun g => h.trans _ _ _ (h.symm _ _ hax) g, fun g => h.trans _ _ _ hax g⟩
      have hQ : Q a = Q x := by
        funext y
        apply Bool.eq_iff_iff.2
        exact ⟨fun g => h.left _ _ _ hax g, fun g => h.left _ _ _ (h.symm _ _ hax) g⟩
      rw [hP, hQ]
      exact hpre x hx
    · rw [if_neg hany]
      have hzero : pre.countP (P a) = 0 := by
        rw [List.countP_eq_zero]
        intro x hx hax
        exact hany (List.any_eq_true.2 ⟨x, hx, hax⟩)
      have hsuf : (pre ++ a :: l).countP (P a) = (a :: l).countP (P a) := by rw [List.countP_append, hzero, Nat.zero_add]
      rw [Bool.and_eq_true, decide_eq_true_iff, ← hsuf]
      constructor
      · rintro ⟨h1, h2⟩
        exact (hstep h1).1 h2
      · intro hall
        have ha := hall a (List.mem_append.2 (.inr (List.mem_cons_self ..)))
        exact ⟨ha, (hstep ha).2 hall⟩

variable [Monad m] [LawfulMonad m]

theorem permPart_pure {P : A → A → Bool} {Q : A → B → Bool} (h : Matching P Q) (bs : List B) : ∀ (l pre : List A),
    permPart (m := m) (fun a b => pure (P a b)) (fun a b => pure (Q a b)) bs l.length pre l = pure (permOk P Q bs pre l) := by
  intro l
  induction l with
  | nil => intro pre; rfl
  | cons a l ih =>
    intro pre
    rw [List.length_cons, permPart, permOk]
    simp only [findIf_pure, countIf_pure, pure_bind, ih]
    have hany : pre.findIdx (P a) ≠ pre.length ↔ pre.any (P a) = true := by
      have := List.findIdx_le_length (p := P a) (xs := pre)
      rw [show (pre.findIdx (P a) ≠ pre.length) ↔ pre.findIdx (P a) < pre.length by omega, List.findIdx_lt_length]
      simp
    simp only [hany]
    by_cases hp : pre.any (P a) = true
    · rw [if_pos hp, if_pos hp]
    · rw [if_neg hp, if_neg hp]
      have hpos : (a :: l).countP (P a) ≠ 0 := by
        rw [List.countP_cons, h.refl]; simp
      by_cases hc : bs.countP (Q a) = (a :: l).countP (P a)
      · rw [if_neg (by omega), if_neg (by simpa using hc)]
        simp [hc]
      · by_cases h0 : bs.countP (Q a) = 0
        · rw [if_pos h0]
          simp [hc]
        · rw [if_neg h0, if_pos hc]
          simp [hc]

theorem permPart_permuted {P : A → A → Bool} {Q : A → B → Bool} (h : Matching P Q) (l : List A) (bs : List B) (hl : l.length = bs.length) :
    ∃ b, permPart (m := m) (fun a b => pure (P a b)) (fun a b => pure (Q a b)) bs l.length [] l = pure b ∧ (b = true ↔ Permuted Q l bs) := by
  refine ⟨_, permPart_pure h bs l [], ?_⟩
  rw [permOk_iff h bs l [] (by simp), permuted_count h]
  simp [hl]

end StdAlg

open Prog
namespace Algo
variable {V : Type} (E : Env V) {B : Type}
open Coll

theorem run_bind {α β : Type} {x : OptionT Id α} {f : α → OptionT Id β} {a : α} (h : x.run = some a) : (x >>= f).run = (f a).run := by
  rw [OptionT.run_bind]
  simp only [h]
  rfl

theorem run_defd {α β : Type} {o : Option α} {f : α → OptionT Id β} {a : α} (h : o = some a) : (defd o >>= f).run = (f a).run := by
  subst h
  rfl

theorem permSuffix_id {c : Coll V} {w : World} (h : c.Inv E w) (Ts : List Ty) {P : Passed V → Passed V → Bool} {Q : Passed V → B → Bool}
    (hpq : StdAlg.Matching P Q) {it last : GIter} {r : Nat} {q : Spec.State.Pos} (hi : AtRank E c it r) (hl : c.At E last q)
    (hr : r ≤ c.abs.rank q) (bs : List B) (hb : c.abs.rank q - r = bs.length) :
    ∃ b, (permSuffix (m := Id) E c Ts it last bs P Q).run = some b ∧ (b = true ↔ StdAlg.Permuted Q (passed Ts ((before c q).drop r)) bs) := by
  have hlen := before_length E h.map hl
  have hs := permSuffix_sim (m := Id) E h Ts P Q hi hl hr bs
  obtain ⟨b, g1, g2⟩ := StdAlg.permPart_permuted (m := Id) hpq (passed Ts ((before c q).drop r)) bs (by rw [passed_length, List.length_drop, hlen]; exact hb)
  rw [passed_length] at g1
  have g1 : StdAlg.permPart (m := Id) P Q bs ((before c q).drop r).length [] (passed Ts ((before c q).drop r)) = b := g1
  rw [g1] at hs
  obtain ⟨a, k1, k2⟩ := hs.id
  exact ⟨a, k1, by rw [k2]; exact g2⟩

theorem isPermutation4_id {c : Coll V} {w : World} (h : c.Inv E w) (Ts : List Ty) {P : Passed V → Passed V → Bool} {Q : Passed V → B → Bool}
    (hpq : StdAlg.Matching P Q) {it last : GIter} {r : Nat} {q : Spec.State.Pos} (hi : AtRank E c it r) (hl : c.At E last q)
    (hr : r ≤ c.abs.rank q) (bs : List B) :
    ∃ b, (isPermutation4 (m := Id) E c Ts it last bs P Q).run = some b ∧
      (b = true ↔ StdAlg.Permuted Q (passed Ts ((before c q).drop r)) bs) := by
  obtain ⟨n, h1, h2, h3, h4, h5⟩ := StdAlg.mismatch_pure (m := Id) Q (passed Ts ((before c q).drop r)) bs
  have h1 : StdAlg.mismatch (m := Id) Q (passed Ts ((before c q).drop r)) bs = (n, bs.drop n) := h1
  have hlen := before_length E h.map hl
  have hm := mismatch4_from (m := Id) E h Ts Q hi hl hr bs
  rw [h1] at hm
  obtain ⟨x, k1, k2, k3, -⟩ := hm.id
  have hdrop : (passed Ts ((before c q).drop r)).drop n = passed Ts ((before c q).drop (r + n)) := by
    simp [passed, List.map_drop, List.drop_drop]
  have hsplit : StdAlg.Permuted Q (passed Ts ((before c q).drop r)) bs ↔ StdAlg.Permuted Q (passed Ts ((before c q).drop (r + n))) (bs.drop n) := by
    have := StdAlg.permuted_suffix hpq (l' := (passed Ts ((before c q).drop r)).drop n) (bs' := bs.drop n) h4
    rw [List.take_append_drop, List.take_append_drop, hdrop] at this
    exact this
  rw [passed_length, List.length_drop, hlen] at h2
  obtain ⟨pos, hpos, hrk⟩ := id k2
  have hdist : fastDistance E c x.1 last = some (c.abs.rank q - (r + n)) := by
    rw [fastDistance_eq E h hpos hl (by omega), hrk]
  simp only at k3
  rw [isPermutation4, run_bind k1, run_defd hdist, hsplit, k3]
  by_cases hd : c.abs.rank q - (r + n) = (bs.drop n).length
  · rw [if_neg (by simpa using hd)]
    exact permSuffix_id E h Ts hpq k2 hl (by omega) _ hd
  · rw [if_pos hd]
    refine ⟨false, rfl, by simp, fun ⟨l', g1, g2⟩ => absurd ?_ hd⟩
    rw [← g2.length_eq, g1.length_eq, passed_length, List.length_drop, hlen]

theorem isPermutation3_id {c : Coll V} {w : World} (h : c.Inv E w) (Ts : List Ty) {P : Passed V → Passed V → Bool} {Q : Passed V → B → Bool}
    (hpq : StdAlg.Matching P Q) {it last : GIter} {r : Nat} {q : Spec.State.Pos} (hi : AtRank E c it r) (hl : c.At E last q)
    (hr : r ≤ c.abs.rank q) (bs : List B) (hb : c.abs.rank q - r ≤ bs.length) :
    ∃ b, (isPermutation3 (m := Id) E c Ts it last bs P Q).run = some b ∧
      (b = true ↔ StdAlg.Permuted Q (passed Ts ((before c q).drop r)) (bs.take (c.abs.rank q - r))) := by
  obtain ⟨n, h1, h2, h3, h4, h5⟩ := StdAlg.mismatch_pure (m := Id) Q (passed Ts ((before c q).drop r)) bs
  have h1 : StdAlg.mismatch (m := Id) Q (passed Ts ((before c q).drop r)) bs = (n, bs.drop n) := h1
  have hlen := before_length E h.map hl
  have hm := mismatch3_from (m := Id) E h Ts Q hi hl hr bs hb
  rw [h1] at hm
  obtain ⟨x, k1, k2, k3, -⟩ := hm.id
  have hdrop : (passed Ts ((before c q).drop r)).drop n = passed Ts ((before c q).drop (r + n)) := by
    simp [passed, List.map_drop, List.drop_drop]
  rw [passed_length, List.length_drop, hlen] at h2
  have hbt : bs.take (c.abs.rank q - r) = bs.take n ++ (bs.drop n).take (c.abs.rank q - (r + n)) := by
    rw [show c.abs.rank q - r = n + (c.abs.rank q - (r + n)) by omega, List.take_add]
  have hsplit : StdAlg.Permuted Q (passed Ts ((before c q).drop r)) (bs.take (c.abs.rank q - r)) ↔
      StdAlg.Permuted Q (passed Ts ((before c q).drop (r + n))) ((bs.drop n).take (c.abs.rank q - (r + n))) := by
    have := StdAlg.permuted_suffix hpq (l' := (passed Ts ((before c q).drop r)).drop n) (bs' := (bs.drop n).take (c.abs.rank q - (r + n))) h4
    rw [List.take_append_drop, ← hbt, hdrop] at this
    exact this
  obtain ⟨pos, hpos, hrk⟩ := id k2
  have hdist : fastDistance E c x.1 last = some (c.abs.rank q - (r + n)) := by
    rw [fastDistance_eq E h hpos hl (by omega), hrk]
  simp only at k3
  have hle : c.abs.rank q - (r + n) ≤ (bs.drop n).length := by rw [List.length_drop]; omega
  rw [isPermutation3, run_bind k1, run_defd hdist, hsplit, k3, if_pos hle]
  rw [run_defd rfl]
  exact permSuffix_id E h Ts hpq k2 hl (by omega) _ (by rw [List.length_take]; omega)

end Algo
end PolyColl
