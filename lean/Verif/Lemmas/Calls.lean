import Verif.Spec.Calls
import Verif.Spec.Std
/-! # How often the algorithms on lists call their functors -/

namespace PolyColl
namespace StdAlg
variable {S ε A B O O' R W α β : Type}

theorem Calls.pure {u : Nat} {Q : α → Nat → Prop} {a : α} (h : Q a 0) : Calls u Q (Pure.pure a : Watched S ε α) := by
  intro s n
  refine ⟨0, Nat.zero_le _, rfl, fun b hb => ?_⟩
  cases hb
  exact h

theorem Calls.counted {f : A → ExceptT ε (StateM S) R} (a : A) : Calls 1 (fun _ k => k = 1) (counted f a) :=
  fun _ _ => ⟨1, Nat.le_refl _, rfl, fun _ _ => rfl⟩

theorem Calls.silent2 {f : A → B → ExceptT ε (StateM S) R} (a : A) (b : B) : Calls 0 (fun _ k => k = 0) (silent2 f a b) :=
  fun _ _ => ⟨0, Nat.le_refl _, rfl, fun _ _ => rfl⟩

theorem Calls.mono {u u' : Nat} {Q Q' : α → Nat → Prop} {x : Watched S ε α} (h : Calls u Q x) (hu : u ≤ u') (hq : ∀ a k, k ≤ u → Q a k → Q' a k) :
    Calls u' Q' x := by
  intro s n
  obtain ⟨k, h1, h2, h3⟩ := h s n
  exact ⟨k, Nat.le_trans h1 hu, h2, fun a ha => hq a k h1 (h3 a ha)⟩

theorem run_bind (x : Watched S ε α) (f : α → Watched S ε β) (s : S × Nat) : (x >>= f).run s = match x.run s with
    | (.ok a, s') => (f a).run s'
    | (.error e, s') => (.error e, s') := by
  show (ExceptT.bindCont f (x s).1 : StateM (S × Nat) _) (x s).2 = match x s with
    | (.ok a, s') => f a s'
    | (.error e, s') => (.error e, s')
  generalize x s = r
  obtain ⟨r, s'⟩ := r
  cases r <;> rfl

theorem Calls.bind {u v : Nat} {Q : α → Nat → Prop} {Q' : β → Nat → Prop} {x : Watched S ε α} {f : α → Watched S ε β} (h : Calls u Q x) (hv : u ≤ v)
    (hf : ∀ a k, k ≤ u → Q a k → Calls (v - k) (fun b j => Q' b (k + j)) (f a)) : Calls v Q' (x >>= f) := by
  intro s n
  obtain ⟨k, h1, h2, h3⟩ := h s n
  rw [run_bind]
  generalize hx : x.run (s, n) = r at h2 h3
  obtain ⟨r, s', n'⟩ := r
  dsimp only at h2
  subst h2
  cases r with
  | error e => exact ⟨k, by omega, rfl, fun a ha => by cases ha⟩
  | ok a =>
    obtain ⟨j, g1, g2, g3⟩ := hf a k h1 (h3 a rfl) s' (n + k)
    exact ⟨k + j, by omega, by rw [← Nat.add_assoc]; exact g2, g3⟩

theorem Calls.map {u : Nat} {Q : α → Nat → Prop} {Q' : β → Nat → Prop} {x : Watched S ε α} {f : α → β} (h : Calls u Q x)
    (hf : ∀ a k, k ≤ u → Q a k → Q' (f a) k) : Calls u Q' (f <$> x) := by
  rw [map_eq_pure_bind]
  exact h.bind (Nat.le_refl _) fun a k hk hq => Calls.pure (by simpa using hf a k hk hq)

/-- One counted call, then the rest. -/
theorem Calls.next {u : Nat} {Q : β → Nat → Prop} {g : A → ExceptT ε (StateM S) R} {a : A} {f : R → Watched S ε β} (h : 1 ≤ u)
    (hf : ∀ r, Calls (u - 1) (fun b j => Q b (1 + j)) (f r)) : Calls u Q (StdAlg.counted g a >>= f) :=
  (Calls.counted a).bind h fun r _ _ hk => by subst hk; exact hf r

/-- A call that is not counted, then the rest. -/
theorem Calls.free {u : Nat} {Q : β → Nat → Prop} {g : A → B → ExceptT ε (StateM S) R} {a : A} {b : B} {f : R → Watched S ε β}
    (hf : ∀ r, Calls u Q (f r)) : Calls u Q (StdAlg.silent2 g a b >>= f) :=
  (Calls.silent2 a b).bind (Nat.zero_le _) fun r _ _ hk => by
    subst hk
    exact (hf r).mono (Nat.le_refl _) fun _ _ _ h => by rwa [Nat.zero_add]

theorem Calls.ite {u : Nat} {Q : α → Nat → Prop} {c : Prop} [Decidable c] {x y : Watched S ε α} (h1 : c → Calls u Q x) (h2 : ¬ c → Calls u Q y) :
    Calls u Q (if c then x else y) := by
  split
  · exact h1 ‹_›
  · exact h2 ‹_›

variable (P : A → ExceptT ε (StateM S) Bool) (P2 : A → B → ExceptT ε (StateM S) Bool)

theorem allOf_calls (l : List A) : Calls l.length (fun b k => b = true → k = l.length) (allOf (counted P) l) := by
  induction l with
  | nil => exact Calls.pure fun _ => rfl
  | cons a l ih =>
    refine Calls.next (by simp) fun b => Calls.ite (fun _ => ih.mono (by simp) fun c k _ h hc => ?_) fun _ => Calls.pure (by simp)
    rw [List.length_cons, h hc]; omega

theorem anyOf_calls (l : List A) : Calls l.length (fun b k => b = false → k = l.length) (anyOf (counted P) l) := by
  induction l with
  | nil => exact Calls.pure fun _ => rfl
  | cons a l ih =>
    refine Calls.next (by simp) fun b => Calls.ite (fun _ => Calls.pure (by simp)) fun _ => ih.mono (by simp) fun c k _ h hc => ?_
    rw [List.length_cons, h hc]; omega

theorem noneOf_calls (l : List A) : Calls l.length (fun b k => b = true → k = l.length) (noneOf (counted P) l) := by
  induction l with
  | nil => exact Calls.pure fun _ => rfl
  | cons a l ih =>
    refine Calls.next (by simp) fun b => Calls.ite (fun _ => Calls.pure (by simp)) fun _ => ih.mono (by simp) fun c k _ h hc => ?_
    rw [List.length_cons, h hc]; omega

theorem forEach_calls {F : Type} (f : F → A → ExceptT ε (StateM S) F) (l : List A) (s : F) :
    Calls l.length (fun _ k => k = l.length) (forEach (counted2 f) l s) := by
  induction l generalizing s with
  | nil => exact Calls.pure rfl
  | cons a l ih =>
    refine Calls.next (by simp) fun b => (ih b).mono (by simp) fun _ k _ h => ?_
    rw [List.length_cons, h]; omega

theorem findIf_calls (l : List A) : Calls l.length (fun i k => k = min (i + 1) l.length) (findIf (counted P) l) := by
  induction l with
  | nil => exact Calls.pure rfl
  | cons a l ih =>
    refine Calls.next (by simp) fun b => Calls.ite (fun _ => Calls.pure (by simp)) fun _ => ?_
    refine (ih.bind (Nat.le_refl _) fun i k _ h => Calls.pure ?_).mono (by simp) fun _ _ _ h => h
    simp only [List.length_cons]; omega

theorem findIfNot_calls (l : List A) : Calls l.length (fun i k => k = min (i + 1) l.length) (findIfNot (counted P) l) := by
  induction l with
  | nil => exact Calls.pure rfl
  | cons a l ih =>
    refine Calls.next (by simp) fun b => Calls.ite (fun _ => ?_) fun _ => Calls.pure (by simp)
    refine (ih.bind (Nat.le_refl _) fun i k _ h => Calls.pure ?_).mono (by simp) fun _ _ _ h => h
    simp only [List.length_cons]; omega

theorem findFirstOf_calls (bs : List B) (l : List A) :
    Calls (l.length * bs.length) (fun i k => k ≤ min (i + 1) l.length * bs.length) (findFirstOf (counted2 P2) bs l) := by
  unfold findFirstOf
  induction l with
  | nil => exact Calls.pure (by simp)
  | cons a l ih =>
    unfold findIf
    refine (anyOf_calls (P2 a) bs).bind (by simp [Nat.succ_mul]) fun b k hk _ => Calls.ite (fun _ => Calls.pure ?_) fun _ => ?_
    · have : min (0 + 1) (a :: l).length = 1 := by simp
      rw [this]; omega
    · refine (ih.bind (Nat.le_refl _) fun i j _ h => Calls.pure ?_).mono ?_ fun _ _ _ h => h
      · have h2 : min (i + 1 + 1) (a :: l).length = min (i + 1) l.length + 1 := by simp only [List.length_cons]; omega
        rw [h2, Nat.succ_mul]; omega
      · rw [List.length_cons, Nat.succ_mul]; omega

theorem adjacentFind_calls (P : A → A → ExceptT ε (StateM S) Bool) (l : List A) :
    Calls (l.length - 1) (fun i k => k = min (i + 1) (l.length - 1)) (adjacentFind (counted2 P) l) := by
  induction l with
  | nil => exact Calls.pure rfl
  | cons a l ih =>
    cases l with
    | nil => exact Calls.pure rfl
    | cons b l =>
      refine Calls.next (by simp) fun c => Calls.ite (fun _ => Calls.pure (by simp)) fun _ => ?_
      refine (ih.bind (Nat.le_refl _) fun i k _ h => Calls.pure ?_).mono (by simp) fun _ _ _ h => h
      simp only [List.length_cons] at h ⊢; omega

theorem countIf_calls (l : List A) : Calls l.length (fun _ k => k = l.length) (countIf (counted P) l) := by
  induction l with
  | nil => exact Calls.pure rfl
  | cons a l ih =>
    refine Calls.next (by simp) fun b => Calls.ite (fun _ => ?_) fun _ => ih.mono (by simp) fun _ k _ h => ?_
    · refine (ih.bind (Nat.le_refl _) fun i k _ h => Calls.pure ?_).mono (by simp) fun _ _ _ h => h
      simp only [List.length_cons]; omega
    · simp only [List.length_cons]; omega

theorem mismatch_calls (l : List A) (bs : List B) :
    Calls (min l.length bs.length) (fun r k => k = min (r.1 + 1) (min l.length bs.length) ∧ r.1 ≤ l.length ∧ r.2.length = bs.length - r.1 ∧ r.1 ≤ bs.length)
      (mismatch (counted2 P2) l bs) := by
  induction l generalizing bs with
  | nil => unfold mismatch; exact Calls.pure (by simp)
  | cons a l ih =>
    cases bs with
    | nil => exact Calls.pure (by simp)
    | cons b bs =>
      refine Calls.next (by simp) fun c => Calls.ite (fun _ => ?_) fun _ => Calls.pure (by simp)
      refine ((ih bs).bind (Nat.le_refl _) fun r k _ h => Calls.pure ?_).mono (by simp only [List.length_cons]; omega) fun _ _ _ h => h
      simp only [List.length_cons]; omega

theorem equal_calls (l : List A) (bs : List B) :
    Calls (min l.length bs.length) (fun b k => b = true → k = l.length ∧ l.length = bs.length) (equal (counted2 P2) l bs) := by
  induction l generalizing bs with
  | nil =>
    unfold equal
    refine Calls.pure fun h => ?_
    rw [List.isEmpty_iff.1 h]; simp
  | cons a l ih =>
    cases bs with
    | nil => exact Calls.pure (by simp)
    | cons b bs =>
      refine Calls.next (by simp) fun c => Calls.ite (fun _ => ?_) fun _ => Calls.pure (by simp)
      refine (ih bs).mono (by simp only [List.length_cons]; omega) fun _ _ _ h hb => ?_
      simp only [List.length_cons]; have := h hb; omega

theorem search_calls (bs : List B) (l : List A) :
    Calls (l.length * bs.length) (fun i k => i ≤ l.length ∧ k ≤ min (i + 1) l.length * bs.length) (search (counted2 P2) bs l) := by
  induction l with
  | nil => exact Calls.pure (by simp)
  | cons a l ih =>
    unfold search
    refine (mismatch_calls P2 (a :: l) bs).bind (by rw [List.length_cons, Nat.succ_mul]; omega) fun r k hk _ => Calls.ite (fun _ => Calls.pure ?_) fun _ => ?_
    · have : min (0 + 1) (a :: l).length = 1 := by simp
      rw [this]; omega
    · refine (ih.bind (Nat.le_refl _) fun i j _ h => Calls.pure ?_).mono ?_ fun _ _ _ h => h
      · have h2 : min (i + 1 + 1) (a :: l).length = min (i + 1) l.length + 1 := by simp only [List.length_cons]; omega
        rw [h2, Nat.succ_mul]
        simp only [List.length_cons]
        omega
      · rw [List.length_cons, Nat.succ_mul]; omega

theorem findEndFrom_calls (bs : List B) : ∀ (N : Nat) (l : List A), l.length = N → ∀ off res : Nat,
    Calls (l.length * bs.length) (fun _ _ => True) (findEndFrom (counted2 P2) bs l off res) := by
  intro N
  induction N using Nat.strongRecOn with
  | _ N ih =>
    rintro l rfl off res
    unfold findEndFrom
    refine (search_calls P2 bs l).bind (Nat.le_refl _) fun i k hk hi => ?_
    split
    · rename_i hlt
      refine (ih _ (by simp only [List.length_drop]; omega) (l.drop (i + 1)) rfl _ _).mono ?_ fun _ _ _ _ => trivial
      rw [List.length_drop, Nat.sub_mul]
      have := hi.2
      rw [Nat.min_eq_left (by omega)] at this
      omega
    · exact Calls.pure trivial

theorem findEnd_calls (bs : List B) (l : List A) : Calls (l.length * bs.length) (fun _ _ => True) (findEnd (counted2 P2) bs l) := by
  unfold findEnd
  exact Calls.ite (fun _ => Calls.pure trivial) fun _ => findEndFrom_calls P2 bs _ l rfl _ _

theorem searchN_calls (count : Int) (l : List A) : Calls l.length (fun _ _ => True) (searchN (counted P) count l) := by
  have h : ∀ (l : List A) (n run : Nat), Calls l.length (fun _ _ => True) (searchNFrom (counted P) count.toNat l n run) := by
    intro l
    induction l with
    | nil => exact fun _ _ => Calls.pure trivial
    | cons a l ih =>
      intro n run
      refine Calls.next (by simp) fun b => Calls.ite (fun _ => Calls.ite (fun _ => Calls.pure trivial) fun _ => ?_) fun _ => ?_
      · exact (ih _ _).mono (by simp) fun _ _ _ h => h
      · exact (ih _ _).mono (by simp) fun _ _ _ h => h
  unfold searchN
  exact Calls.ite (fun _ => Calls.pure trivial) fun _ => h l 0 0

theorem copy_calls (out : O → A → ExceptT ε (StateM S) O) (l : List A) (o : O) :
    Calls l.length (fun _ k => k = l.length) (copy (counted2 out) l o) := by
  induction l generalizing o with
  | nil => exact Calls.pure rfl
  | cons a l ih =>
    refine Calls.next (by simp) fun b => (ih b).mono (by simp) fun _ k _ h => ?_
    rw [List.length_cons, h]; omega

theorem copyIf_calls (out : O → A → ExceptT ε (StateM S) O) (l : List A) (o : O) :
    Calls l.length (fun _ k => k = l.length) (copyIf (silent2 out) (counted P) l o) := by
  induction l generalizing o with
  | nil => exact Calls.pure rfl
  | cons a l ih =>
    have h : ∀ o, Calls ((a :: l).length - 1) (fun _ k => 1 + k = (a :: l).length) (copyIf (silent2 out) (counted P) l o) := fun o =>
      (ih o).mono (by simp) fun _ k _ h => by simp only [List.length_cons]; omega
    exact Calls.next (by simp) fun b => Calls.ite (fun _ => Calls.free h) fun _ => h _

theorem transform_calls (out : O → W → ExceptT ε (StateM S) O) (op : A → ExceptT ε (StateM S) W) (l : List A) (o : O) :
    Calls l.length (fun _ k => k = l.length) (transform (silent2 out) (counted op) l o) := by
  induction l generalizing o with
  | nil => exact Calls.pure rfl
  | cons a l ih =>
    refine Calls.next (by simp) fun x => Calls.free fun o => (ih o).mono (by simp) fun _ k _ h => ?_
    simp only [List.length_cons]; omega

theorem transform2_calls (out : O → W → ExceptT ε (StateM S) O) (op : A → B → ExceptT ε (StateM S) W) (l : List A) (bs : List B) (o : O)
    (hb : l.length ≤ bs.length) : Calls l.length (fun _ k => k = l.length) (transform2 (silent2 out) (counted2 op) l bs o) := by
  induction l generalizing bs o with
  | nil => unfold transform2; exact Calls.pure rfl
  | cons a l ih =>
    cases bs with
    | nil => simp at hb
    | cons b bs =>
      simp only [List.length_cons] at hb
      refine Calls.next (by simp) fun x => Calls.free fun o => (ih bs o (by omega)).mono (by simp) fun _ k _ h => ?_
      simp only [List.length_cons]; omega

theorem replaceCopyIf_calls (out : O → A → ExceptT ε (StateM S) O) (new : O → W → ExceptT ε (StateM S) O) (w : W) (l : List A) (o : O) :
    Calls l.length (fun _ k => k = l.length) (replaceCopyIf (silent2 out) (fun o => silent2 new o w) (counted P) l o) := by
  induction l generalizing o with
  | nil => exact Calls.pure rfl
  | cons a l ih =>
    have h : ∀ o, Calls ((a :: l).length - 1) (fun _ k => 1 + k = (a :: l).length)
        (replaceCopyIf (silent2 out) (fun o => silent2 new o w) (counted P) l o) := fun o =>
      (ih o).mono (by simp) fun _ k _ h => by simp only [List.length_cons]; omega
    exact Calls.next (by simp) fun b => Calls.ite (fun _ => Calls.free h) fun _ => Calls.free h

theorem removeCopyIf_calls (out : O → A → ExceptT ε (StateM S) O) (l : List A) (o : O) :
    Calls l.length (fun _ k => k = l.length) (removeCopyIf (silent2 out) (counted P) l o) := by
  induction l generalizing o with
  | nil => exact Calls.pure rfl
  | cons a l ih =>
    have h : ∀ o, Calls ((a :: l).length - 1) (fun _ k => 1 + k = (a :: l).length) (removeCopyIf (silent2 out) (counted P) l o) := fun o =>
      (ih o).mono (by simp) fun _ k _ h => by simp only [List.length_cons]; omega
    exact Calls.next (by simp) fun b => Calls.ite (fun _ => h _) fun _ => Calls.free h

theorem partitionCopy_calls (out : O → A → ExceptT ε (StateM S) O) (out' : O' → A → ExceptT ε (StateM S) O') (l : List A) (o : O) (o' : O') :
    Calls l.length (fun _ k => k = l.length) (partitionCopy (silent2 out) (silent2 out') (counted P) l o o') := by
  induction l generalizing o o' with
  | nil => exact Calls.pure rfl
  | cons a l ih =>
    have h : ∀ o o', Calls ((a :: l).length - 1) (fun _ k => 1 + k = (a :: l).length)
        (partitionCopy (silent2 out) (silent2 out') (counted P) l o o') := fun o o' =>
      (ih o o').mono (by simp) fun _ k _ h => by simp only [List.length_cons]; omega
    exact Calls.next (by simp) fun b => Calls.ite (fun _ => Calls.free fun o => h o _) fun _ => Calls.free fun o' => h _ o'

theorem uniqueCopyFrom_calls (out : O → A → ExceptT ε (StateM S) O) (P : A → A → ExceptT ε (StateM S) Bool) (l : List A) (a : A) (o : O) :
    Calls l.length (fun _ k => k = l.length) (uniqueCopyFrom (silent2 out) (counted2 P) a l o) := by
  induction l generalizing a o with
  | nil => unfold uniqueCopyFrom; exact Calls.pure rfl
  | cons b l ih =>
    have h : ∀ a o, Calls ((b :: l).length - 1) (fun _ k => 1 + k = (b :: l).length) (uniqueCopyFrom (silent2 out) (counted2 P) a l o) := fun a o =>
      (ih a o).mono (by simp) fun _ k _ h => by simp only [List.length_cons]; omega
    exact Calls.next (by simp) fun c => Calls.ite (fun _ => h _ _) fun _ => Calls.free fun o => h _ o

theorem uniqueCopy_calls (out : O → A → ExceptT ε (StateM S) O) (P : A → A → ExceptT ε (StateM S) Bool) (l : List A) (o : O) :
    Calls (l.length - 1) (fun _ k => k = l.length - 1) (uniqueCopy (silent2 out) (counted2 P) l o) := by
  cases l with
  | nil => exact Calls.pure rfl
  | cons a l => exact Calls.free fun o => (uniqueCopyFrom_calls out P l a o).mono (by simp) fun _ _ _ h => by simpa using h

theorem rotateCopy_calls (out : O → A → ExceptT ε (StateM S) O) (l l' : List A) (o : O) :
    Calls (l.length + l'.length) (fun _ k => k = l.length + l'.length) (rotateCopy (counted2 out) l l' o) := by
  unfold rotateCopy
  refine (copy_calls out l' o).bind (by omega) fun o k _ h => (copy_calls out l o).mono (by omega) fun _ j _ hj => by omega

/-! ### find_end where everything matches -/

/-- A predicate that always holds. -/
def always (_ : A) (_ : B) : ExceptT ε (StateM S) Bool := pure true

theorem Calls.always {u : Nat} {Q : β → Nat → Prop} {a : A} {b : B} {f : Bool → Watched S ε β} (h : 1 ≤ u)
    (hf : Calls (u - 1) (fun b j => Q b (1 + j)) (f true)) : Calls u Q (counted2 (always (S := S) (ε := ε)) a b >>= f) := by
  refine Calls.bind (u := 1) (Q := fun r k => r = true ∧ k = 1) ?_ h fun r k _ hk => ?_
  · exact fun s n => ⟨1, Nat.le_refl _, rfl, fun r hr => by cases hr; exact ⟨rfl, rfl⟩⟩
  · obtain ⟨rfl, rfl⟩ := hk
    exact hf

theorem mismatch_always (l : List A) (bs : List B) :
    Calls (min l.length bs.length) (fun r k => k = min l.length bs.length ∧ r.2 = bs.drop (min l.length bs.length))
      (mismatch (counted2 (always (S := S) (ε := ε))) l bs) := by
  induction l generalizing bs with
  | nil => unfold mismatch; exact Calls.pure (by simp)
  | cons a l ih =>
    cases bs with
    | nil => exact Calls.pure (by simp)
    | cons b bs =>
      have hm : min (a :: l).length (b :: bs).length = min l.length bs.length + 1 := by simp only [List.length_cons]; omega
      rw [hm]
      refine Calls.always (by omega) ?_
      rw [if_pos rfl]
      refine ((ih bs).bind (Nat.le_refl _) fun r k _ h => Calls.pure ?_).mono (by omega) fun _ _ _ h => h
      refine ⟨by omega, ?_⟩
      rw [List.drop_succ_cons]
      exact h.2

/-- A pattern that is too long: nothing is found, and the search is done from every place on. -/
theorem search_tooLong (bs : List B) (l : List A) (h : l.length < bs.length) :
    Calls (l.length * bs.length) (fun i k => i = l.length ∧ 2 * k = l.length * (l.length + 1)) (search (counted2 (always (S := S) (ε := ε))) bs l) := by
  induction l with
  | nil => exact Calls.pure (by simp)
  | cons a l ih =>
    have hm : min (a :: l).length bs.length = l.length + 1 := by simp only [List.length_cons] at h ⊢; omega
    simp only [List.length_cons] at h
    unfold search
    refine (mismatch_always (a :: l) bs).bind (by rw [List.length_cons, Nat.succ_mul]; omega) fun r k hk hr => ?_
    rw [hm] at hr
    have hne : ¬ r.2.isEmpty = true := by
      rw [hr.2, List.isEmpty_iff, List.drop_eq_nil_iff]; omega
    rw [if_neg hne]
    refine ((ih (by omega)).bind (Nat.le_refl _) fun i j _ hi => Calls.pure ?_).mono ?_ fun _ _ _ h => h
    · rw [hr.1, List.length_cons]
      refine ⟨by omega, ?_⟩
      have e : (l.length + 1) * (l.length + 1 + 1) = l.length * (l.length + 1) + 2 * (l.length + 1) := by
        rw [Nat.mul_comm (l.length + 1), Nat.add_assoc l.length 1 1, Nat.add_mul]
      omega
    · rw [List.length_cons, Nat.succ_mul]; omega

/-- A pattern that is not: it is found at once. -/
theorem search_fits (bs : List B) (l : List A) (hne : l ≠ []) (h : bs.length ≤ l.length) :
    Calls bs.length (fun i k => i = 0 ∧ k = bs.length) (search (counted2 (always (S := S) (ε := ε))) bs l) := by
  cases l with
  | nil => exact absurd rfl hne
  | cons a l =>
    have hm : min (a :: l).length bs.length = bs.length := by omega
    unfold search
    refine (mismatch_always (a :: l) bs).bind (by omega) fun r k hk hr => ?_
    rw [hm] at hr
    have hn : r.2.isEmpty = true := by rw [hr.2, List.drop_length]; rfl
    rw [if_pos hn]
    exact Calls.pure ⟨rfl, by omega⟩

theorem findEndFrom_always (bs : List B) (hb : bs ≠ []) (d : Nat) : ∀ (l : List A) (off res : Nat), l.length + 1 = bs.length + d →
    Calls (l.length * bs.length) (fun _ k => 2 * k = 2 * (d * bs.length) + bs.length * (bs.length - 1)) (findEndFrom (counted2 (always (S := S) (ε := ε))) bs l off res) := by
  have hb0 : 0 < bs.length := List.length_pos_iff.2 hb
  induction d with
  | zero =>
    intro l off res hl
    unfold findEndFrom
    refine (search_tooLong bs l (by omega)).bind (Nat.le_refl _) fun i k _ hi => ?_
    rw [dif_neg (by omega)]
    refine Calls.pure ?_
    obtain ⟨-, h2⟩ := hi
    have : bs.length * (bs.length - 1) = l.length * (l.length + 1) := by
      rw [Nat.mul_comm]
      rw [show bs.length = l.length + 1 by omega, Nat.add_sub_cancel]
    omega
  | succ d ih =>
    intro l off res hl
    have hne : l ≠ [] := List.length_pos_iff.1 (by omega)
    have hl0 : 0 < l.length := List.length_pos_iff.2 hne
    have hmul : l.length * bs.length = (l.length - 1) * bs.length + bs.length := by
      conv => lhs; rw [show l.length = l.length - 1 + 1 by omega, Nat.succ_mul]
    unfold findEndFrom
    refine (search_fits bs l hne (by omega)).bind (by omega) fun i k _ hi => ?_
    obtain ⟨rfl, rfl⟩ := hi
    rw [dif_pos hl0]
    refine (ih (l.drop (0 + 1)) _ _ (by simp only [List.length_drop]; omega)).mono ?_ fun _ j _ hj => ?_
    · rw [List.length_drop, Nat.zero_add]; omega
    · have := Nat.succ_mul d bs.length
      rw [Nat.succ_eq_add_one] at this
      omega

/-- The calls of `find_end` if everything matches, for a pattern that fits. -/
theorem findEnd_always (bs : List B) (l : List A) (hb : bs ≠ []) (h : bs.length ≤ l.length) :
    Calls (l.length * bs.length) (fun _ k => 2 * k = 2 * ((l.length - bs.length + 1) * bs.length) + bs.length * (bs.length - 1))
      (findEnd (counted2 (always (S := S) (ε := ε))) bs l) := by
  unfold findEnd
  rw [if_neg (by rwa [List.isEmpty_iff])]
  exact findEndFrom_always bs hb _ l _ _ (by omega)

/-- Draws of numbers, counted. -/
theorem sample_calls (out : O → A → ExceptT ε (StateM S) O) (rnd : (k : Nat) → ExceptT ε (StateM S) (Fin (k + 1))) (l : List A) (n : Nat) (o : O) :
    Calls l.length (fun _ _ => True) (sample (silent2 out) (fun k => counted (fun _ : Unit => rnd k) ()) l n o) := by
  induction l generalizing n o with
  | nil => unfold sample; exact Calls.pure trivial
  | cons a l ih =>
    cases n with
    | zero => exact Calls.pure trivial
    | succ n =>
      refine Calls.next (by simp) fun r => Calls.ite (fun _ => Calls.free fun o => ?_) fun _ => ?_
      · exact (ih _ _).mono (by simp) fun _ _ _ h => h
      · exact (ih _ _).mono (by simp) fun _ _ _ h => h

theorem isPartitioned_calls (l : List A) : Calls l.length (fun b k => b = true → k = l.length) (isPartitioned (counted P) l) := by
  induction l with
  | nil => exact Calls.pure fun _ => rfl
  | cons a l ih =>
    refine Calls.next (by simp) fun b => Calls.ite (fun _ => ih.mono (by simp) ?_) fun _ => (noneOf_calls P l).mono (by simp) ?_
    all_goals
      intro c k _ h hc
      rw [List.length_cons, h hc]; omega

theorem partitionPoint_calls : ∀ (N : Nat) (l : List A), l.length = N → ∀ d, l.length < 2 ^ d → Calls d (fun _ _ => True) (partitionPoint (counted P) l) := by
  intro N
  induction N using Nat.strongRecOn with
  | _ N ih =>
    rintro l rfl d hd
    unfold partitionPoint
    split
    · exact Calls.pure trivial
    · rename_i a h
      have hlt := (List.getElem?_eq_some_iff.1 h).1
      have hd0 : d ≠ 0 := by rintro rfl; rw [Nat.pow_zero] at hd; omega
      obtain ⟨d, rfl⟩ := Nat.exists_eq_succ_of_ne_zero hd0
      have hp : 2 ^ (d + 1) = 2 * 2 ^ d := by rw [Nat.pow_succ]; omega
      rw [Nat.succ_eq_add_one, hp] at hd
      refine Calls.next (by omega) fun b => Calls.ite (fun _ => ?_) fun _ => ?_
      · exact (ih _ (by simp only [List.length_drop]; omega) _ rfl d (by simp only [List.length_drop]; omega)).bind (by omega) fun _ _ _ _ => Calls.pure trivial
      · exact (ih _ (by simp only [List.length_take]; omega) _ rfl d (by simp only [List.length_take]; omega)).mono (by omega) fun _ _ _ _ => trivial

end StdAlg
end PolyColl
