import Verif.Spec.Std
import Verif.Lemmas.StdPerm
/-!
# What the algorithms on lists return

For functors without effects.  These theorems say that the definitions of `Spec/Std.lean` are what
they are meant to be.
-/

namespace PolyColl
namespace StdAlg
variable {m : Type → Type} [Monad m] [LawfulMonad m] {A B O W : Type}

theorem allOf_pure (P : A → Bool) (l : List A) : allOf (m := m) (fun a => pure (P a)) l = pure (l.all P) := by
  induction l with
  | nil => rfl
  | cons a l ih => rw [allOf, pure_bind, ih, List.all_cons]; cases P a <;> simp

theorem anyOf_pure (P : A → Bool) (l : List A) : anyOf (m := m) (fun a => pure (P a)) l = pure (l.any P) := by
  induction l with
  | nil => rfl
  | cons a l ih => rw [anyOf, pure_bind, ih, List.any_cons]; cases P a <;> simp

theorem noneOf_pure (P : A → Bool) (l : List A) : noneOf (m := m) (fun a => pure (P a)) l = pure (!l.any P) := by
  induction l with
  | nil => rfl
  | cons a l ih => rw [noneOf, pure_bind, ih, List.any_cons]; cases P a <;> simp

theorem forEach_pure {F : Type} (f : F → A → F) (l : List A) (s : F) : forEach (m := m) (fun s a => pure (f s a)) l s = pure (l.foldl f s) := by
  induction l generalizing s with
  | nil => rfl
  | cons a l ih => rw [forEach, pure_bind, ih, List.foldl_cons]

theorem findIfNot_pure (P : A → Bool) (l : List A) : findIfNot (m := m) (fun a => pure (P a)) l = pure (l.findIdx fun a => !P a) := by
  induction l with
  | nil => rfl
  | cons a l ih =>
    rw [findIfNot, pure_bind, ih, List.findIdx_cons]
    cases P a <;> simp

theorem equal_pure (Q : A → B → Bool) (l : List A) (bs : List B) :
    ∃ b, equal (m := m) (fun a b => pure (Q a b)) l bs = pure b ∧ (b = true ↔ Both (fun a b => Q a b = true) l bs) := by
  induction l generalizing bs with
  | nil =>
    cases bs with
    | nil => exact ⟨true, rfl, fun _ => .nil, fun _ => rfl⟩
    | cons b bs => exact ⟨false, rfl, by simp, fun h => by cases h⟩
  | cons a l ih =>
    cases bs with
    | nil => exact ⟨false, rfl, by simp, fun h => by cases h⟩
    | cons b bs =>
      cases hq : Q a b with
      | false =>
        refine ⟨false, by simp [equal, hq], by simp, fun h => ?_⟩
        cases h with
        | cons h _ => rw [hq] at h; cases h
      | true =>
        obtain ⟨x, h1, h2⟩ := ih bs
        refine ⟨x, by simp [equal, hq, h1], fun h => .cons hq (h2.1 h), fun h => ?_⟩
        cases h with
        | cons _ h => exact h2.2 h

/-- Writing to a `std::back_insert_iterator`. -/
def append (o : List A) (a : A) : m (List A) := pure (o ++ [a])

theorem copy_append_list (l o : List A) : copy (m := m) append l o = pure (o ++ l) := by
  induction l generalizing o with
  | nil => simp [copy]
  | cons a l ih => simp [copy, append] at ih ⊢; simp [ih]

theorem copyIf_pure (P : A → Bool) (l o : List A) : copyIf (m := m) append (fun a => pure (P a)) l o = pure (o ++ l.filter P) := by
  induction l generalizing o with
  | nil => simp [copyIf]
  | cons a l ih =>
    rw [copyIf, pure_bind, List.filter_cons]
    cases P a <;> simp [append, ih]

theorem removeCopyIf_pure (P : A → Bool) (l o : List A) :
    removeCopyIf (m := m) append (fun a => pure (P a)) l o = pure (o ++ l.filter fun a => !P a) := by
  induction l generalizing o with
  | nil => simp [removeCopyIf]
  | cons a l ih =>
    rw [removeCopyIf, pure_bind, List.filter_cons]
    cases P a <;> simp [append, ih]

theorem transform_pure (f : A → W) (l : List A) (o : List W) : transform (m := m) append (fun a => pure (f a)) l o = pure (o ++ l.map f) := by
  induction l generalizing o with
  | nil => simp [transform]
  | cons a l ih => simp [transform, append, ih]

theorem transform2_pure (f : A → B → W) (l : List A) (bs : List B) (o : List W) :
    transform2 (m := m) append (fun a b => pure (f a b)) l bs o = pure (o ++ List.zipWith f l bs) := by
  induction l generalizing o bs with
  | nil => simp [transform2]
  | cons a l ih =>
    cases bs with
    | nil => simp [transform2]
    | cons b bs => simp [transform2, append, ih]

theorem replaceCopyIf_pure (P : A → Bool) (x : A) (l o : List A) :
    replaceCopyIf (m := m) append (fun o => append o x) (fun a => pure (P a)) l o = pure (o ++ l.map fun a => if P a then x else a) := by
  induction l generalizing o with
  | nil => simp [replaceCopyIf]
  | cons a l ih =>
    rw [replaceCopyIf, pure_bind, List.map_cons]
    have hw : ∀ (o : List A) (a : A), append (m := m) o a = pure (o ++ [a]) := fun _ _ => rfl
    cases P a
    · rw [if_neg (by simp), hw, pure_bind, ih]; simp
    · rw [if_pos rfl, hw, pure_bind, ih]; simp

theorem partitionCopy_pure (P : A → Bool) (l o o' : List A) :
    partitionCopy (m := m) append append (fun a => pure (P a)) l o o' = pure (o ++ l.filter P, o' ++ l.filter fun a => !P a) := by
  induction l generalizing o o' with
  | nil => simp [partitionCopy]
  | cons a l ih =>
    rw [partitionCopy, pure_bind, List.filter_cons, List.filter_cons]
    cases P a <;> simp [append, ih]

theorem rotateCopy_pure (l l' o : List A) : rotateCopy (m := m) append l l' o = pure (o ++ l' ++ l) := by
  simp [rotateCopy, copy_append_list]

/-! ### search and find_end -/

omit [Monad m] [LawfulMonad m] in
theorem occurs_zero {Q : A → B → Bool} {bs : List B} {l : List A} {n : Nat} (h3 : n ≤ bs.length) (h2 : n ≤ l.length)
    (h4 : Both (fun a b => Q a b = true) (l.take n) (bs.take n)) (h5 : ∀ a b, l[n]? = some a → bs[n]? = some b → Q a b = false) :
    Occurs Q bs l 0 ↔ (bs.drop n).isEmpty = true := by
  rw [List.isEmpty_iff, List.drop_eq_nil_iff]
  constructor
  · rintro ⟨g1, g2⟩
    rcases Nat.lt_or_ge n bs.length with h | h
    · exfalso
      rw [Nat.zero_add] at g1
      have hb : bs[n]? = some bs[n] := List.getElem?_eq_getElem h
      have ha : l[n]? = some l[n] := List.getElem?_eq_getElem (Nat.lt_of_lt_of_le h g1)
      have := h5 _ _ ha hb
      have key : ∀ (l : List A) (bs : List B), Both (fun a b => Q a b = true) l bs → ∀ (n : Nat) a b, l[n]? = some a → bs[n]? = some b → Q a b = true := by
        intro l bs hb
        induction hb with
        | nil => intro n a b h; simp at h
        | cons h _ ih =>
          intro n a b h1 h2
          cases n with
          | zero => simp at h1 h2; rw [← h1, ← h2]; exact h
          | succ n => exact ih n a b (by simpa using h1) (by simpa using h2)
      have h' := key _ _ g2 n l[n] bs[n] (by rw [List.drop_zero, List.getElem?_take_of_lt h, ha]) hb
      rw [this] at h'
      cases h'
    · exact h
  · intro h
    have hn : n = bs.length := Nat.le_antisymm h3 h
    subst hn
    refine ⟨by omega, ?_⟩
    rw [List.take_length] at h4
    simpa using h4

omit [Monad m] [LawfulMonad m] in
theorem occurs_succ {Q : A → B → Bool} {bs : List B} {a : A} {l : List A} {k : Nat} : Occurs Q bs (a :: l) (k + 1) ↔ Occurs Q bs l k := by
  simp only [Occurs, List.length_cons, List.drop_succ_cons]
  rw [show k + 1 + bs.length ≤ l.length + 1 ↔ k + bs.length ≤ l.length by omega]

omit [Monad m] [LawfulMonad m] in
theorem occurs_drop {Q : A → B → Bool} {bs : List B} {l : List A} {j k : Nat} (hj : j ≤ l.length) :
    Occurs Q bs (l.drop j) k ↔ Occurs Q bs l (j + k) := by
  simp only [Occurs, List.length_drop, List.drop_drop]
  rw [show k + bs.length ≤ l.length - j ↔ j + k + bs.length ≤ l.length by omega]

theorem search_pure (Q : A → B → Bool) (bs : List B) (l : List A) :
    ∃ n, search (m := m) (fun a b => pure (Q a b)) bs l = pure n ∧ n ≤ l.length ∧ (n < l.length → Occurs Q bs l n) ∧
      ∀ k < n, ¬ Occurs Q bs l k := by
  induction l with
  | nil => exact ⟨0, rfl, by simp, by simp, by omega⟩
  | cons a l ih =>
    obtain ⟨k, h1, h2, h3, h4, h5⟩ := mismatch_pure (m := m) Q (a :: l) bs
    have h0 := occurs_zero h3 h2 h4 h5
    simp only [search, h1, pure_bind]
    by_cases hb : (bs.drop k).isEmpty = true
    · rw [if_pos hb]
      exact ⟨0, rfl, by simp, fun _ => h0.2 hb, by omega⟩
    · rw [if_neg hb]
      obtain ⟨n, g1, g2, g3, g4⟩ := ih
      refine ⟨n + 1, by simp [g1], by simpa using g2, fun h => occurs_succ.2 (g3 (by simpa using h)), fun j hj => ?_⟩
      cases j with
      | zero => exact fun h => hb (h0.1 h)
      | succ j => rw [occurs_succ]; exact g4 j (by omega)

theorem findEndFrom_pure (Q : A → B → Bool) (bs : List B) (l0 : List A) (hb : bs ≠ []) :
    ∀ (d : Nat) (l : List A) (off res : Nat), l.length = d → l = l0.drop off → off ≤ l0.length → res ≤ l0.length →
      (res < l0.length → Occurs Q bs l0 res) → (∀ k, k < off → k ≠ res → (k < res → False) → ¬ Occurs Q bs l0 k) →
      (res = l0.length → ∀ k, k < off → ¬ Occurs Q bs l0 k) → (res < l0.length → res < off) →
      ∃ n, findEndFrom (m := m) (fun a b => pure (Q a b)) bs l off res = pure n ∧ n ≤ l0.length ∧ (n < l0.length → Occurs Q bs l0 n) ∧
        (∀ k, n < k → ¬ Occurs Q bs l0 k) ∧ (n = l0.length → ∀ k, ¬ Occurs Q bs l0 k) := by
  intro d
  induction d using Nat.strongRecOn with
  | ind d ih =>
    intro l off res hd hl ho hr1 hr2 hr3 hr4 hr5
    obtain ⟨n, h1, h2, h3, h4⟩ := search_pure (m := m) Q bs l
    rw [findEndFrom, h1, pure_bind]
    have hpos : 0 < bs.length := List.length_pos_iff.2 hb
    have hlen : l.length = l0.length - off := by rw [hl, List.length_drop]
    have hocc : ∀ k, Occurs Q bs l k ↔ Occurs Q bs l0 (off + k) := by
      intro k; rw [hl]; exact occurs_drop ho
    by_cases hn : n < l.length
    · rw [dif_pos hn]
      have ho1 := (hocc n).1 (h3 hn)
      refine ih (l.length - (n + 1)) (by omega) (l.drop (n + 1)) (off + n + 1) (off + n) (by rw [List.length_drop])
        (by rw [hl, List.drop_drop]; rfl) (by omega) (by omega) (fun _ => ho1) ?_ (fun h => by omega) (fun _ => by omega)
      intro k hk1 hk2 hk3
      exact absurd (show k < off + n by omega) hk3
    · rw [dif_neg hn]
      have hnone : ∀ k, off ≤ k → ¬ Occurs Q bs l0 k := by
        intro k hk g
        have hlt : k < l0.length := by have := g.1; omega
        have := (hocc (k - off)).2 (by rw [show off + (k - off) = k by omega]; exact g)
        exact h4 (k - off) (by omega) this
      refine ⟨res, rfl, hr1, hr2, fun k hk => ?_, fun hk k => ?_⟩
      · rcases Nat.lt_or_ge k off with h | h
        · exact hr3 k h (by omega) (by omega)
        · exact hnone k h
      · rcases Nat.lt_or_ge k off with h | h
        · exact hr4 hk k h
        · exact hnone k h

theorem findEnd_pure (Q : A → B → Bool) (bs : List B) (l : List A) (hb : bs ≠ []) :
    ∃ n, findEnd (m := m) (fun a b => pure (Q a b)) bs l = pure n ∧ n ≤ l.length ∧ (n < l.length → Occurs Q bs l n) ∧
      (∀ k, n < k → ¬ Occurs Q bs l k) ∧ (n = l.length → ∀ k, ¬ Occurs Q bs l k) := by
  have he : bs.isEmpty = false := by cases bs <;> simp_all
  simp only [findEnd, he, Bool.false_eq_true, if_false]
  exact findEndFrom_pure Q bs l hb l.length l 0 l.length rfl rfl (by omega) (by omega) (by omega) (by omega) (by omega) (by omega)

/-! ### search_n -/

theorem searchNFrom_pure (P : A → Bool) (count : Nat) (l0 : List A) : ∀ (l : List A) (n run : Nat), l = l0.drop n → n ≤ l0.length → run ≤ n →
    run < count → (∀ k, n - run ≤ k → k < n → ∀ a, l0[k]? = some a → P a = true) → (∀ k < n - run, ¬ RunAt P count l0 k) →
    ∃ j, searchNFrom (m := m) (fun a => pure (P a)) count l n run = pure j ∧ j ≤ l0.length ∧ (j < l0.length → RunAt P count l0 j) ∧
      ∀ k < j, ¬ RunAt P count l0 k := by
  intro l
  induction l with
  | nil =>
    intro n run hl hn h1 h2 h3 h4
    have hlen : l0.length = n := by
      have := congrArg List.length hl
      rw [List.length_drop] at this
      simp only [List.length_nil] at this
      omega
    refine ⟨n, rfl, hn, by omega, fun k hk g => ?_⟩
    rcases Nat.lt_or_ge k (n - run) with h | h
    · exact h4 k h g
    · have := g.1; omega
  | cons a l ih =>
    intro n run hl hn h1 h2 h3 h4
    have hlt : n < l0.length := by
      have := congrArg List.length hl
      rw [List.length_drop, List.length_cons] at this
      omega
    rw [List.drop_eq_getElem_cons hlt] at hl
    cases hl
    have hget : l0[n]? = some l0[n] := List.getElem?_eq_getElem hlt
    rw [searchNFrom, pure_bind]
    cases hp : P l0[n] with
    | true =>
      rw [if_pos rfl]
      by_cases hc : run + 1 = count
      · rw [if_pos hc]
        refine ⟨n - run, rfl, by omega, fun _ => ⟨by omega, fun a ha => ?_⟩, h4⟩
        obtain ⟨i, hi, rfl⟩ := List.getElem_of_mem ha
        rw [List.length_take, List.length_drop] at hi
        rw [List.getElem_take, List.getElem_drop]
        rcases Nat.lt_or_ge (n - run + i) n with h | h
        · exact h3 _ (by omega) h _ (List.getElem?_eq_getElem _)
        · have : n - run + i = n := by omega
          simp only [this]
          exact hp
      · rw [if_neg hc]
        refine ih (n + 1) (run + 1) rfl (by omega) (by omega) (by omega) ?_ (by rw [Nat.add_sub_add_right]; exact h4)
        intro k hk1 hk2 a ha
        rcases Nat.lt_or_ge k n with h | h
        · exact h3 k (by omega) h a ha
        · have : k = n := by omega
          subst this
          rw [hget] at ha
          cases ha
          exact hp
    | false =>
      rw [if_neg (by simp)]
      refine ih (n + 1) 0 rfl (by omega) (by omega) (by omega) (by omega) ?_
      intro k hk g
      rcases Nat.lt_or_ge k (n - run) with h | h
      · exact h4 k h g
      · have hm : l0[n] ∈ (l0.drop k).take count := by
          refine List.mem_of_getElem? (i := n - k) ?_
          rw [List.getElem?_take_of_lt (by omega), List.getElem?_drop, show k + (n - k) = n by omega, hget]
        have := g.2 _ hm
        rw [hp] at this
        cases this

theorem searchN_pure (P : A → Bool) (count : Int) (l : List A) (hc : 0 < count) :
    ∃ j, searchN (m := m) (fun a => pure (P a)) count l = pure j ∧ j ≤ l.length ∧ (j < l.length → RunAt P count.toNat l j) ∧
      ∀ k < j, ¬ RunAt P count.toNat l k := by
  rw [searchN, if_neg (by omega)]
  exact searchNFrom_pure P count.toNat l l 0 0 rfl (by omega) (by omega) (by omega) (by omega) (by omega)

/-! ### Partitions -/

theorem isPartitioned_pure (P : A → Bool) (l : List A) :
    ∃ b, isPartitioned (m := m) (fun a => pure (P a)) l = pure b ∧ (b = true ↔ Partitioned P l) := by
  induction l with
  | nil => exact ⟨true, rfl, fun _ => ⟨[], [], rfl, by simp, by simp⟩, fun _ => rfl⟩
  | cons a l ih =>
    rw [isPartitioned, pure_bind]
    cases hp : P a with
    | true =>
      obtain ⟨b, h1, h2⟩ := ih
      refine ⟨b, by simp [h1], ?_⟩
      rw [h2]
      constructor
      · rintro ⟨u, v, rfl, h3, h4⟩
        exact ⟨a :: u, v, rfl, by simpa [hp] using h3, h4⟩
      · rintro ⟨u, v, h3, h4, h5⟩
        cases u with
        | nil =>
          simp only [List.nil_append] at h3
          subst h3
          have := h5 a (by simp)
          rw [hp] at this; cases this
        | cons x u =>
          cases h3
          exact ⟨u, v, rfl, fun y hy => h4 y (by simp [hy]), h5⟩
    | false =>
      refine ⟨!l.any P, by simp [noneOf_pure], ?_⟩
      constructor
      · intro h
        simp only [Bool.not_eq_true', List.any_eq_false] at h
        exact ⟨[], a :: l, rfl, by simp, by simpa [hp] using h⟩
      · rintro ⟨u, v, h3, h4, h5⟩
        cases u with
        | nil =>
          simp only [List.nil_append] at h3
          subst h3
          simpa using fun y hy => h5 y (by simp [hy])
        | cons x u =>
          cases h3
          have := h4 a (by simp)
          rw [hp] at this; cases this

omit [Monad m] [LawfulMonad m] in
theorem Partitioned.drop {P : A → Bool} {l : List A} (h : Partitioned P l) (k : Nat) : Partitioned P (l.drop k) := by
  obtain ⟨u, v, rfl, h1, h2⟩ := h
  exact ⟨u.drop k, v.drop (k - u.length), List.drop_append, fun a ha => h1 a (List.mem_of_mem_drop ha),
    fun a ha => h2 a (List.mem_of_mem_drop ha)⟩

omit [Monad m] [LawfulMonad m] in
theorem Partitioned.take {P : A → Bool} {l : List A} (h : Partitioned P l) (k : Nat) : Partitioned P (l.take k) := by
  obtain ⟨u, v, rfl, h1, h2⟩ := h
  exact ⟨u.take k, v.take (k - u.length), List.take_append, fun a ha => h1 a (List.mem_of_mem_take ha),
    fun a ha => h2 a (List.mem_of_mem_take ha)⟩

omit [Monad m] [LawfulMonad m] in
theorem Partitioned.before {P : A → Bool} {l : List A} (h : Partitioned P l) {k : Nat} {a : A} (hk : l[k]? = some a) (ha : P a = true) :
    ∀ x ∈ l.take (k + 1), P x = true := by
  obtain ⟨u, v, rfl, h1, h2⟩ := h
  have : k < u.length := by
    rcases Nat.lt_or_ge k u.length with h | h
    · exact h
    · rw [List.getElem?_append_right h] at hk
      have := h2 a (List.mem_of_getElem? hk)
      rw [ha] at this; cases this
  intro x hx
  rw [List.take_append_of_le_length (by omega)] at hx
  exact h1 x (List.mem_of_mem_take hx)

omit [Monad m] [LawfulMonad m] in
theorem Partitioned.after {P : A → Bool} {l : List A} (h : Partitioned P l) {k : Nat} {a : A} (hk : l[k]? = some a) (ha : P a = false) :
    ∀ x ∈ l.drop k, P x = false := by
  obtain ⟨u, v, rfl, h1, h2⟩ := h
  have : u.length ≤ k := by
    rcases Nat.lt_or_ge k u.length with h | h
    · rw [List.getElem?_append_left h] at hk
      have := h1 a (List.mem_of_getElem? hk)
      rw [ha] at this; cases this
    · exact h
  intro x hx
  rw [List.drop_append, List.drop_eq_nil_of_le this, List.nil_append] at hx
  exact h2 x (List.mem_of_mem_drop hx)

theorem partitionPoint_pure (P : A → Bool) : ∀ (d : Nat) (l : List A), l.length = d → Partitioned P l →
    ∃ n, partitionPoint (m := m) (fun a => pure (P a)) l = pure n ∧ n ≤ l.length ∧ (∀ a ∈ l.take n, P a = true) ∧ ∀ a ∈ l.drop n, P a = false := by
  intro d
  induction d using Nat.strongRecOn with
  | ind d ih =>
    intro l hd hl
    rw [partitionPoint]
    split
    · rename_i h
      have : l = [] := by
        rw [List.getElem?_eq_none_iff] at h
        exact List.length_eq_zero_iff.1 (by omega)
      subst this
      exact ⟨0, rfl, by simp, by simp, by simp⟩
    · rename_i a h
      have hlt := (List.getElem?_eq_some_iff.1 h).1
      rw [pure_bind]
      cases hp : P a with
      | true =>
        obtain ⟨n, h1, h2, h3, h4⟩ := ih (l.length - (l.length / 2 + 1)) (by omega) (l.drop (l.length / 2 + 1)) (by rw [List.length_drop]) (hl.drop _)
        rw [List.length_drop] at h2
        refine ⟨l.length / 2 + 1 + n, by simp [h1], by omega, fun x hx => ?_, fun x hx => ?_⟩
        · rw [List.take_add] at hx
          rcases List.mem_append.1 hx with hx | hx
          · exact hl.before h hp x hx
          · exact h3 x hx
        · rw [← List.drop_drop] at hx
          exact h4 x hx
      | false =>
        obtain ⟨n, h1, h2, h3, h4⟩ := ih (l.length / 2) (by omega) (l.take (l.length / 2)) (by rw [List.length_take]; omega) (hl.take _)
        rw [List.length_take] at h2
        refine ⟨n, by simp [h1], by omega, fun x hx => ?_, fun x hx => ?_⟩
        · refine h3 x ?_
          rw [List.take_take, Nat.min_eq_left (by omega)]
          exact hx
        · rcases List.getElem_of_mem hx with ⟨i, hi, rfl⟩
          rw [List.length_drop] at hi
          rw [List.getElem_drop]
          rcases Nat.lt_or_ge (n + i) (l.length / 2) with h' | h'
          · refine h4 _ ?_
            refine List.mem_of_getElem? (i := i) ?_
            rw [List.getElem?_drop, List.getElem?_take_of_lt h', List.getElem?_eq_getElem]
          · refine hl.after h hp _ ?_
            refine List.mem_of_getElem? (i := n + i - l.length / 2) ?_
            rw [List.getElem?_drop, show l.length / 2 + (n + i - l.length / 2) = n + i by omega, List.getElem?_eq_getElem]

/-! ### sample -/

theorem sample_results (rnd : (k : Nat) → m (Fin (k + 1))) (l : List A) : ∀ (n : Nat) (o : List A),
    Algo.Results (fun o' => ∃ s, o' = o ++ s ∧ s.Sublist l ∧ s.length = min n l.length) (sample append rnd l n o) := by
  induction l with
  | nil =>
    intro n o
    exact Algo.Results.pure ⟨[], by simp, List.Sublist.refl _, by simp⟩
  | cons a l ih =>
    intro n o
    cases n with
    | zero => exact Algo.Results.pure ⟨[], by simp, List.nil_sublist _, by simp⟩
    | succ n =>
      rw [sample]
      refine Algo.Results.anyBind fun r => Algo.Results.ite (fun _ => ?_) (fun h => ?_)
      · simp only [append, pure_bind]
        refine (ih n (o ++ [a])).mono fun o' ho => ?_
        obtain ⟨s, rfl, h2, h3⟩ := ho
        refine ⟨a :: s, by simp, h2.cons_cons a, ?_⟩
        simp only [List.length_cons]
        omega
      · refine (ih (n + 1) o).mono fun o' ho => ?_
        obtain ⟨s, rfl, h2, h3⟩ := ho
        refine ⟨s, rfl, h2.cons a, ?_⟩
        have := r.isLt
        simp only [List.length_cons]
        omega

/-! ### adjacent_find and unique_copy -/

theorem adjacentFind_pure (P : A → A → Bool) (l : List A) :
    ∃ n, adjacentFind (m := m) (fun a b => pure (P a b)) l = pure n ∧ n ≤ l.length ∧
      (n < l.length → ∃ a b, l[n]? = some a ∧ l[n + 1]? = some b ∧ P a b = true) ∧
      ∀ k < n, ∀ a b, l[k]? = some a → l[k + 1]? = some b → P a b = false := by
  induction l with
  | nil => exact ⟨0, rfl, by simp, by simp, by omega⟩
  | cons a l ih =>
    cases l with
    | nil => exact ⟨1, rfl, by simp, by simp, by simp⟩
    | cons b l =>
      rw [adjacentFind, pure_bind]
      cases hp : P a b with
      | true => exact ⟨0, by simp, by simp, fun _ => ⟨a, b, rfl, rfl, hp⟩, by omega⟩
      | false =>
        obtain ⟨n, h1, h2, h3, h4⟩ := ih
        refine ⟨n + 1, by simp [h1], by simpa using h2, fun h => ?_, fun k hk x y hx hy => ?_⟩
        · obtain ⟨x, y, g1, g2, g3⟩ := h3 (by simpa using h)
          exact ⟨x, y, by simpa using g1, by simpa using g2, g3⟩
        · cases k with
          | zero =>
            simp at hx hy
            rw [← hx, ← hy]
            exact hp
          | succ k => exact h4 k (by omega) x y (by simpa using hx) (by simpa using hy)

end StdAlg
end PolyColl
