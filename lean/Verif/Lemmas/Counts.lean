import Verif.Model.Counts
import Verif.Lemmas.AlgoCalls
/-! # Numbers of any integer type -/

namespace PolyColl
namespace Abi
variable {A : Abi} {t u : IntTy} {z a b : Int}

theorem two_pow_le {a b : Nat} (h : a ≤ b) : (2 : Int) ^ a ≤ 2 ^ b := by exact_mod_cast Nat.pow_le_pow_right (by decide) h

theorem two_pow_pos (a : Nat) : 0 < (2 : Int) ^ a := by exact_mod_cast Nat.two_pow_pos a

theorem width_pos (A : Abi) (r : Nat) : 0 < A.width r := Nat.lt_of_lt_of_le A.pos (A.mono (Nat.zero_le r))

theorem two_pow_width (A : Abi) (r : Nat) : (2 : Int) ^ A.width r = 2 * 2 ^ (A.width r - 1) := by
  have := A.width_pos r
  rw [show A.width r = A.width r - 1 + 1 by omega, Int.pow_succ, Nat.add_sub_cancel, Int.mul_comm]

theorem conv_is (h : A.Is t z) : A.conv t z = z := by
  unfold Is lo hi at h
  unfold conv
  have h0 := two_pow_width A t.rank
  have h1 := two_pow_pos (A.width t.rank - 1)
  split <;> rename_i hs
  · rw [if_pos hs, if_pos hs] at h
    rw [Int.emod_eq_of_lt (by omega) (by omega)]
    omega
  · rw [if_neg hs, if_neg hs] at h
    exact Int.emod_eq_of_lt (by omega) (by omega)

/-- Conversion gives a value of the type. -/
theorem is_conv (A : Abi) (t : IntTy) (z : Int) : A.Is t (A.conv t z) := by
  unfold Is lo hi conv
  have h0 := two_pow_width A t.rank
  have h1 := two_pow_pos (A.width t.rank - 1)
  split
  · have h2 := Int.emod_nonneg (z + 2 ^ (A.width t.rank - 1)) (b := 2 ^ A.width t.rank) (by omega)
    have h3 := Int.emod_lt_of_pos (z + 2 ^ (A.width t.rank - 1)) (b := 2 ^ A.width t.rank) (by omega)
    omega
  · have h2 := Int.emod_nonneg z (b := 2 ^ A.width t.rank) (by omega)
    have h3 := Int.emod_lt_of_pos z (b := 2 ^ A.width t.rank) (by omega)
    omega

theorem emod_le {a b : Int} (ha : 0 ≤ a) (hb : 0 < b) : a % b ≤ a := by
  have h1 := Int.mul_ediv_add_emod a b
  have h2 := Int.mul_nonneg (Int.le_of_lt hb) (Int.ediv_nonneg ha (Int.le_of_lt hb))
  omega

theorem conv_le (A : Abi) (t : IntTy) (h : 0 ≤ z) : A.conv t z ≤ z := by
  unfold conv
  have hp := two_pow_pos (A.width t.rank - 1)
  split
  · have := emod_le (show 0 ≤ z + 2 ^ (A.width t.rank - 1) by omega) (two_pow_pos (A.width t.rank))
    omega
  · exact emod_le h (two_pow_pos _)

theorem lo_nonpos (A : Abi) (t : IntTy) : A.lo t ≤ 0 := by
  unfold lo
  have := two_pow_pos (A.width t.rank - 1)
  split <;> omega

theorem hi_signed {r s : Nat} (h : r ≤ s) : A.hi ⟨r, true⟩ ≤ A.hi ⟨s, true⟩ := by
  have := two_pow_le (a := A.width r - 1) (b := A.width s - 1) (by have := A.mono h; omega)
  simp only [hi, if_true]
  omega

theorem hi_unsigned {r s : Nat} (h : A.width r ≤ A.width s) : A.hi ⟨r, false⟩ ≤ A.hi ⟨s, false⟩ := by
  have := two_pow_le h
  simp only [hi, Bool.false_eq_true, if_false]
  omega

theorem hi_wider {r s : Nat} (h : A.width r < A.width s) : A.hi ⟨r, false⟩ ≤ A.hi ⟨s, true⟩ := by
  have := two_pow_le (a := A.width r) (b := A.width s - 1) (by omega)
  simp only [hi, if_true, Bool.false_eq_true, if_false]
  omega

theorem hi_unsign {r s : Nat} (h : r ≤ s) : A.hi ⟨r, true⟩ ≤ A.hi ⟨s, false⟩ := by
  have := two_pow_le (a := A.width r - 1) (b := A.width s) (by have := A.mono h; omega)
  simp only [hi, if_true, Bool.false_eq_true, if_false]
  omega

theorem hi_promote (A : Abi) (t : IntTy) : A.hi t ≤ A.hi (A.promote t) := by
  obtain ⟨r, s⟩ := t
  unfold promote
  split <;> rename_i h
  · cases s
    · rw [Bool.false_or]
      by_cases hw : A.width r < A.width 2
      · simp only [hw, decide_true]
        exact hi_wider hw
      · simp only [hw, decide_false]
        exact hi_unsigned (A.mono (Nat.le_of_lt h))
    · exact hi_signed (Nat.le_of_lt h)
  · exact Int.le_refl _

theorem hi_mixed (A : Abi) (s u : Nat) : A.hi ⟨s, true⟩ ≤ A.hi (A.mixed s u) ∧ A.hi ⟨u, false⟩ ≤ A.hi (A.mixed s u) := by
  unfold mixed
  split <;> rename_i h
  · exact ⟨hi_unsign h, Int.le_refl _⟩
  · split <;> rename_i hw
    · exact ⟨Int.le_refl _, hi_wider hw⟩
    · exact ⟨hi_unsign (Nat.le_refl _), hi_unsigned (A.mono (by omega))⟩

/-- The common type has all the values of both types that are not negative. -/
theorem hi_common (A : Abi) (t u : IntTy) : A.hi t ≤ A.hi (A.common t u) ∧ A.hi u ≤ A.hi (A.common t u) := by
  have h1 := hi_promote A t
  have h2 := hi_promote A u
  unfold common
  generalize A.promote t = t' at h1 ⊢
  generalize A.promote u = u' at h2 ⊢
  obtain ⟨r, a⟩ := t'
  obtain ⟨s, b⟩ := u'
  cases a <;> cases b
  · exact ⟨Int.le_trans h1 (hi_unsigned (A.mono (Nat.le_max_left r s))), Int.le_trans h2 (hi_unsigned (A.mono (Nat.le_max_right r s)))⟩
  · exact ⟨Int.le_trans h1 (hi_mixed A s r).2, Int.le_trans h2 (hi_mixed A s r).1⟩
  · exact ⟨Int.le_trans h1 (hi_mixed A r s).1, Int.le_trans h2 (hi_mixed A r s).2⟩
  · exact ⟨Int.le_trans h1 (hi_signed (Nat.le_max_left r s)), Int.le_trans h2 (hi_signed (Nat.le_max_right r s))⟩

theorem Is.left (h : A.Is t z) (h0 : 0 ≤ z) (u : IntTy) : A.Is (A.common t u) z :=
  ⟨Int.le_trans (lo_nonpos A _) h0, Int.le_trans h.2 (hi_common A t u).1⟩

theorem Is.right (h : A.Is u z) (h0 : 0 ≤ z) (t : IntTy) : A.Is (A.common t u) z :=
  ⟨Int.le_trans (lo_nonpos A _) h0, Int.le_trans h.2 (hi_common A t u).2⟩

theorem Is.mono (h : A.Is t z) (h0 : 0 ≤ a) (ha : a ≤ z) : A.Is t a := ⟨Int.le_trans (lo_nonpos A _) h0, Int.le_trans ha h.2⟩

theorem is_zero (A : Abi) (t : IntTy) : A.Is t 0 := by
  refine ⟨lo_nonpos A t, ?_⟩
  unfold hi
  have h1 := two_pow_pos (A.width t.rank - 1)
  have h2 := two_pow_pos (A.width t.rank)
  split <;> omega

theorem is_one (A : Abi) : A.Is int 1 := by
  refine ⟨Int.le_trans (lo_nonpos A _) (by decide), ?_⟩
  have := two_pow_le (a := 1) (b := A.width 2 - 1) (by have := A.wide; omega)
  simp only [hi, int, if_true]
  omega

theorem is_common_int (h : A.Is t z) : A.Is (A.common t int) z := by
  by_cases h0 : 0 ≤ z
  · exact h.left h0 _
  · refine ⟨?_, Int.le_trans (by omega) (is_zero A _).2⟩
    obtain ⟨r, s⟩ := t
    cases s
    · have := h.1
      simp only [lo, Bool.false_eq_true, if_false] at this
      omega
    · have h1 := h.1
      have hp : ∃ r', A.promote ⟨r, true⟩ = ⟨r', true⟩ ∧ r ≤ r' := by
        unfold promote
        split
        · rename_i h2
          exact ⟨2, by simp, Nat.le_of_lt h2⟩
        · exact ⟨r, rfl, Nat.le_refl _⟩
      obtain ⟨r', e, hr⟩ := hp
      have hi' : A.promote int = ⟨2, true⟩ := rfl
      unfold common
      rw [e, hi']
      have := two_pow_le (a := A.width r - 1) (b := A.width (max r' 2) - 1) (by have := A.mono (r := r) (s := max r' 2) (by omega); omega)
      simp only [lo, if_true] at h1 ⊢
      omega

theorem le_eq (ha : A.Is t a) (h0 : 0 ≤ a) (hb : A.Is u b) (h1 : 0 ≤ b) : A.le t u a b = decide (a ≤ b) := by
  unfold le
  rw [conv_is (ha.left h0 u), conv_is (hb.right h1 t)]

theorem le_zero (ha : A.Is t a) : A.le t int a 0 = decide (a ≤ 0) := by
  unfold le
  rw [conv_is (is_common_int ha), conv_is (is_zero A _)]

theorem eq_zero (ha : A.Is t a) : A.eq t int a 0 = decide (a = 0) := by
  unfold eq
  rw [conv_is (is_common_int ha), conv_is (is_zero A _)]

theorem subFrom_eq (ha : A.Is t a) (hb : A.Is u b) (h0 : 0 ≤ b) (h : b ≤ a) : A.subFrom t u a b = some (a - b) := by
  have h1 := (ha.left (u := u) (by omega)).mono (a := a - b) (by omega) (by omega)
  unfold subFrom fit
  rw [conv_is (ha.left (by omega) u), conv_is (hb.right h0 t)]
  have : (if (A.common t u).signed = true then if A.Is (A.common t u) (a - b) then some (a - b) else none else some (A.conv (A.common t u) (a - b))) = some (a - b) := by
    by_cases hs : (A.common t u).signed = true
    · rw [if_pos hs, if_pos h1]
    · rw [if_neg hs, conv_is h1]
  rw [this, Option.map_some, conv_is (ha.mono (by omega) (by omega))]

theorem dec_eq (ha : A.Is t a) (h : 0 < a) : A.dec t a = some (a - 1) := subFrom_eq ha (is_one A) (by decide) (by omega)

theorem difference_eq {d : Nat} (h : A.Is A.ptrdiff d) : A.difference (some d) = some d := by
  unfold difference
  simp [h]

end Abi

namespace Algo
variable {V : Type} (E : Env V) {A : Abi} {t : IntTy} {m : Type → Type} [Monad m] [LawfulMonad m] {O : Type}
open Coll Abi

/-- The distances within segments are values of `std::ptrdiff_t`. -/
def Small (A : Abi) (c : Coll V) : Prop := ∀ sit i, c.segInfo E sit = some i → A.Is A.ptrdiff i.last.pos.off

theorem mem_le_sum : ∀ {l : List Nat} {a : Nat}, a ∈ l → a ≤ l.sum
  | [], _, h => by cases h
  | b :: l, a, h => by
    rw [List.sum_cons]
    rcases List.mem_cons.1 h with rfl | h
    · omega
    · have := mem_le_sum h
      omega

theorem small_of {c : Coll V} (h : A.Is A.ptrdiff c.size) : Small E A c := by
  intro sit i hi
  unfold Coll.segInfo at hi
  rw [Option.map_eq_some_iff] at hi
  obtain ⟨n, hn, rfl⟩ := hi
  have hm : n ∈ c.map.nodes := by
    unfold TMap.node? at hn
    split at hn
    · split at hn
      · exact List.mem_of_find?_eq_some hn
      · cases hn
    · cases hn
  refine h.mono (by omega) ?_
  have h1 : n.seg.end.off = n.seg.size := by rw [Seg.end_eq]; rfl
  have h2 : n.seg.size ≤ c.size := by
    unfold Coll.size
    exact mem_le_sum (List.mem_map_of_mem (f := fun n : Node V => n.seg.size) hm)
  simp only [h1]
  omega

theorem difference_span {c : Coll V} (hs : Small E A c) {sit : MapIt} {i : SegInfo} (hi : c.segInfo E sit = some i) (p : Ptr) :
    A.difference (span p i.last.pos) = span p i.last.pos := by
  unfold span
  split
  · rename_i h
    exact difference_eq ((hs sit i hi).mono (by omega) (by omega))
  · rfl

theorem span_is {c : Coll V} (hs : Small E A c) {sit : MapIt} {i : SegInfo} (hi : c.segInfo E sit = some i) {p : Ptr} {k : Nat}
    (hk : span p i.last.pos = some k) : A.Is A.ptrdiff k := by
  unfold span at hk
  split at hk
  · simp only [Option.some.injEq] at hk
    exact (hs sit i hi).mono (by omega) (by omega)
  · cases hk

theorem forEachNFromT_eq {F : Type} {c : Coll V} (hs : Small E A c) (Ts : List Ty) (mapend : MapIt) (f : F → Passed V → m F) :
    ∀ (fuel : Nat) (sit : MapIt) (lbit : LIter) (n : Int) (s : F), A.Is t n → 0 < n →
      forEachNFromT A t E c Ts mapend f sit lbit n s fuel = forEachNFrom E c Ts mapend f sit lbit n.toNat s fuel := by
  intro fuel
  induction fuel with
  | zero => intro sit lbit n s _ _; rfl
  | succ fuel ih =>
    intro sit lbit n s hn h0
    unfold forEachNFromT forEachNFrom
    refine defd_bind_congr fun i hi => ?_
    rw [difference_span E hs hi]
    refine defd_bind_congr fun k hk => ?_
    have hkd := span_is E hs hi hk
    rw [le_eq hn (by omega) hkd (by omega)]
    by_cases h : n ≤ k
    · simp only [h, decide_true, if_true]
      rw [if_pos (by omega)]
    · simp only [h, decide_false, Bool.false_eq_true, if_false]
      rw [if_neg (by omega), subFrom_eq hn hkd (by omega) (by omega)]
      refine defd_bind_congr fun r _ => ?_
      refine callBind_congr (Results.any _) fun s' _ => ?_
      rw [defd_some, pure_bind]
      refine defd_bind_congr fun sit' _ => defd_bind_congr fun i' _ => ?_
      rw [ih _ _ _ _ (hn.mono (by omega) (by omega)) (by omega)]
      congr 1
      omega

theorem forEachNT_eq {F : Type} {c : Coll V} (hs : Small E A c) (Ts : List Ty) (first : GIter) {n : Int} (hn : A.Is t n) (f : F → Passed V → m F) (s : F) :
    forEachNT A t E c Ts first n f s = forEachN E c Ts first n f s := by
  unfold forEachNT forEachN
  rw [le_zero hn]
  by_cases h : n ≤ 0
  · simp only [h, decide_true, if_true]
  · simp only [h, decide_false, Bool.false_eq_true, if_false]
    exact forEachNFromT_eq E hs Ts _ f _ _ _ _ _ hn (by omega)

theorem copyNFromT_eq {c : Coll V} (hs : Small E A c) (Ts : List Ty) (out : O → Passed V → m O) :
    ∀ (fuel : Nat) (sit : MapIt) (lbit : LIter) (n : Int) (o : O), A.Is t n → 0 < n →
      copyNFromT A t E c Ts out sit lbit n o fuel = copyNFrom E c Ts out sit lbit n.toNat o fuel := by
  intro fuel
  induction fuel with
  | zero => intro sit lbit n o _ _; rfl
  | succ fuel ih =>
    intro sit lbit n o hn h0
    unfold copyNFromT copyNFrom
    refine defd_bind_congr fun i hi => ?_
    rw [difference_span E hs hi]
    refine defd_bind_congr fun k hk => ?_
    have hm : (min n (k : Int)).toNat = min n.toNat k := by omega
    have hn' : A.Is t (n - min n (k : Int)) := hn.mono (by omega) (by omega)
    simp only [hm]
    refine defd_bind_congr fun r _ => callBind_congr (Results.any _) fun o' _ => ?_
    rw [subFrom_eq hn (hn.mono (a := min n (k : Int)) (by omega) (by omega)) (by omega) (by omega), defd_some, pure_bind, eq_zero hn']
    by_cases h : n ≤ k
    · have h1 : n - min n (k : Int) = 0 := by omega
      have h2 : n.toNat - min n.toNat k = 0 := by omega
      simp only [h1, h2, decide_true, if_true]
    · have h1 : ¬ n - min n (k : Int) = 0 := by omega
      have h2 : ¬ n.toNat - min n.toNat k = 0 := by omega
      simp only [h1, h2, decide_false, Bool.false_eq_true, if_false]
      refine defd_bind_congr fun sit' _ => defd_bind_congr fun i' _ => ?_
      rw [ih _ _ _ _ hn' (by omega)]
      congr 1
      omega

theorem copyNT_eq {c : Coll V} (hs : Small E A c) (Ts : List Ty) (first : GIter) {n : Int} (hn : A.Is A.ptrdiff n) (out : O → Passed V → m O) (o : O) :
    copyNT A A.ptrdiff E c Ts first n out o = some (copyN E c Ts first n out o) := by
  unfold copyNT copyN
  rw [if_pos rfl, le_zero hn]
  congr 1
  by_cases h : n ≤ 0
  · simp only [h, decide_true, if_true]
  · simp only [h, decide_false, Bool.false_eq_true, if_false]
    exact copyNFromT_eq E hs Ts out _ _ _ _ _ hn (by omega)

/-! ### search_n -/

theorem call_bind_pure {α β : Type} (x : m α) (f : α → m β) : (call (x >>= f) : OptionT m β) = call x >>= fun a => call (f a) := by
  refine OptionT.ext ?_
  rw [run_callBind]
  show some <$> (x >>= f) = _
  rw [map_bind]
  rfl

theorem call_pure {α : Type} (a : α) : (call (Pure.pure a : m α) : OptionT m α) = Pure.pure a := by
  refine OptionT.ext ?_
  show some <$> (Pure.pure a : m α) = Pure.pure (some a)
  rw [map_pure]

/-- The results of `searchNAlg` with a number of the other kind. -/
def asInt (x : Nat × Bool × Nat) : Nat × Bool × Int := (x.1, x.2.1, x.2.2)

theorem searchNAlgT_eq (p : Passed V → m Bool) {count : Int} (hc : A.Is t count) (h0 : 0 < count) :
    ∀ (l : List (Passed V)) (n : Nat) (res : Option Nat) (carry : Bool) (remain : Int), A.Is t remain → 0 < remain →
      searchNAlgT A t p count l n res carry remain = call (searchNAlg p count.toNat l n res carry remain.toNat) >>= fun x => pure (asInt x) := by
  intro l
  induction l with
  | nil =>
    intro n res carry remain hr hr0
    cases res <;> simp only [searchNAlgT, searchNAlg, call_pure, pure_bind, asInt, Int.toNat_of_nonneg (Int.le_of_lt hr0)]
  | cons a l ih =>
    intro n res carry remain hr hr0
    simp only [searchNAlgT, searchNAlg, call_bind_pure, bind_assoc]
    refine callBind_congr (Results.any _) fun b _ => ?_
    cases b
    · simp only [Bool.false_eq_true, if_false]
      rw [ih _ _ _ _ hc h0]
    · simp only [if_true]
      rw [dec_eq hr hr0, defd_some, pure_bind]
      have hr' : A.Is t (remain - 1) := hr.mono (by omega) (by omega)
      rw [eq_zero hr']
      by_cases h : remain - 1 = 0
      · have h1 : remain.toNat - 1 = 0 := by omega
        simp only [h, h1, decide_true, if_true, call_pure, pure_bind, asInt]
        rfl
      · have h1 : ¬ remain.toNat - 1 = 0 := by omega
        simp only [h, h1, decide_false, Bool.false_eq_true, if_false]
        rw [ih _ _ _ _ hr' (by omega), show (remain - 1).toNat = remain.toNat - 1 by omega]

theorem searchNAlg_bounds (p : Passed V → m Bool) (count : Nat) (h0 : 0 < count) :
    ∀ (l : List (Passed V)) (n : Nat) (res : Option Nat) (carry : Bool) (remain : Nat), remain ≤ count → 0 < remain → (∀ k, res = some k → k < n) →
      Results (fun x => x.1 ≤ n + l.length ∧ x.2.2 ≤ count ∧ (x.2.2 = 0 → x.1 < n + l.length)) (searchNAlg p count l n res carry remain) := by
  intro l
  induction l with
  | nil =>
    intro n res carry remain h1 h2 h3
    cases res with
    | none => exact Results.pure ⟨Nat.le_refl _, h1, fun e => absurd e (by simp only; omega)⟩
    | some k => exact Results.pure ⟨by have := h3 k rfl; simp only [List.length_nil]; omega, h1, fun e => absurd e (by simp only; omega)⟩
  | cons a l ih =>
    intro n res carry remain h1 h2 h3
    rw [searchNAlg]
    have hg : res.getD n < n + 1 := by
      cases res with
      | none => simp
      | some k => have := h3 k rfl; simp only [Option.getD_some]; omega
    refine Results.anyBind fun b => Results.ite (fun _ => Results.ite (fun h => Results.pure ?_) (fun h => ?_)) (fun _ => ?_)
    · simp only [List.length_cons]
      omega
    · refine (ih (n + 1) (some (res.getD n)) carry (remain - 1) (by omega) (by omega) (fun k e => by simp only [Option.some.injEq] at e; omega)).mono fun x hx => ?_
      simp only [List.length_cons]
      omega
    · refine (ih (n + 1) none false count (Nat.le_refl _) h0 (fun k e => by cases e)).mono fun x hx => ?_
      simp only [List.length_cons]
      omega

theorem searchNInT_eq {c : Coll V} {w : World} (h : c.Core E w) (Ts : List Ty) (p : Passed V → m Bool) {count : Int} (hc : A.Is t count)
    (h0 : 0 < count) {last : GIter} {f : Bool} {ps : List SegInfo} {r : Nat} {l : List (Ty × V)} (hcut : Cut E c f ps r l) :
    ∀ (carry : Bool) (remain : Int) (prev : Option LIter), A.Is t remain → remain ≤ count → 0 < remain →
      searchNInT A t E c Ts last count p ps carry remain prev = searchNIn E c Ts last count.toNat p ps carry remain.toNat prev := by
  induction hcut with
  | nil => intro carry remain prev _ _ _; rfl
  | @cons f i is n a b r l hp hrk hz hcut ih =>
    intro carry remain prev hr hr1 hr0
    obtain ⟨rg, h1, h2, h3, h4⟩ := hp.rangeP E h Ts
    have hlen := sliceP_length (Ts := Ts) E hp
    have hle := hp.le
    have hle' := hp.le'
    unfold searchNInT searchNIn
    rw [h1, defd_some, pure_bind, pure_bind, searchNAlgT_eq p hc h0 _ _ _ _ _ hr hr0, bind_assoc]
    refine callBind_congr (searchNAlg_bounds p count.toNat (by omega) _ 0 none carry remain.toNat (by omega) (by omega) (fun k e => by cases e)) fun x hx => ?_
    rw [h3, hlen, Nat.zero_add] at hx
    obtain ⟨hx1, hx2, hx3⟩ := hx
    have hx' : A.Is t (x.2.2 : Int) := hc.mono (by omega) (by omega)
    rw [pure_bind]
    simp only [asInt]
    rw [h2.at E h (k := x.1) (by omega), defd_some, pure_bind, pure_bind]
    simp only [eq_zero hx']
    have hpos : (n.seg.base (a + x.1) ≠ i.last.pos) ↔ x.1 ≠ b - a := by
      rw [hp.last, ne_eq, base_inj]
      omega
    simp only [hpos]
    by_cases hz0 : x.2.2 = 0
    · have hne : x.1 ≠ b - a := by have := hx3 hz0; omega
      simp [hne, hz0]
      rfl
    · have hz1 : ¬ (x.2.2 : Int) = 0 := by omega
      simp only [hz0, hz1, decide_false, Bool.false_eq_true, if_false]
      simp only [ih _ _ _ hx' (by omega) (by omega), Int.toNat_natCast]

theorem searchNT_eq {c : Coll V} {w : World} (h : c.Inv E w) (Ts : List Ty) (p : Passed V → m Bool) {count : Int} (hc : A.Is t count) {it last : GIter} {r : Nat}
    {q : Spec.State.Pos} (hi : AtRank E c it r) (hl : c.At E last q) (hr : r ≤ c.abs.rank q) :
    searchNT A t E c Ts it last count p = searchN E c Ts it last count p := by
  unfold searchNT searchN
  rw [le_zero hc]
  by_cases h0 : count ≤ 0
  · simp only [h0, decide_true, if_true]
  · simp only [h0, decide_false, Bool.false_eq_true, if_false]
    obtain ⟨ps, h1, h2, -⟩ := cut_from E h hi hl hr
    rw [h1, defd_some, pure_bind, pure_bind]
    exact searchNInT_eq E (Inv.core E h) Ts p hc (by omega) h2 _ _ _ hc (Int.le_refl _) (by omega)

/-! ### sample -/

/-- The results of `sampleAlg` with numbers of the other kind. -/
def asInts (x : O × Nat × Nat) : O × Int × Int := (x.1, x.2.1, x.2.2)

theorem sampleAlgT_eq (out : O → Passed V → m O) (rnd : (j : Nat) → m (Fin (j + 1))) :
    ∀ (l : List (Passed V)) (o : O) (n k : Nat), A.Is t n → A.Is t k → l.length ≤ k ∨ n ≤ k →
      sampleAlgT A t out rnd l o n k = call (sampleAlg out rnd l o n k) >>= fun x => pure (asInts x) := by
  intro l
  induction l with
  | nil => intro o n k _ _ _; simp only [sampleAlgT, sampleAlg, call_pure, pure_bind, asInts]
  | cons a l ih =>
    intro o n k hn hk hl
    simp only [List.length_cons] at hl
    rw [sampleAlgT, sampleAlg, eq_zero hn]
    by_cases h : n = 0
    · simp [h, call_pure, asInts]
    · have h1 : ¬ (n : Int) = 0 := by omega
      simp only [h, h1, decide_false, Bool.false_eq_true, if_false]
      rw [dec_eq hk (by omega), defd_some, pure_bind, if_neg (by omega), call_bind_pure, bind_assoc,
        show ((k : Int) - 1).toNat = k - 1 by omega]
      refine callBind_congr (Results.any _) fun r _ => ?_
      have hk' : A.Is t ((k - 1 : Nat) : Int) := hk.mono (by omega) (by omega)
      have e : ((k : Int) - 1) = ((k - 1 : Nat) : Int) := by omega
      by_cases hr : r.val < n
      · have hr' : (r.val : Int) < n := by omega
        simp only [hr, hr', if_true]
        rw [call_bind_pure, bind_assoc]
        refine callBind_congr (Results.any _) fun o' _ => ?_
        rw [dec_eq hn (by omega), defd_some, pure_bind, e, show ((n : Int) - 1) = ((n - 1 : Nat) : Int) by omega]
        exact ih _ _ _ (hn.mono (by omega) (by omega)) hk' (by omega)
      · have hr' : ¬ (r.val : Int) < n := by omega
        simp only [hr, hr', if_false]
        rw [e]
        exact ih _ _ _ hn hk' (by omega)

theorem sampleAlg_bounds (out : O → Passed V → m O) (rnd : (j : Nat) → m (Fin (j + 1))) :
    ∀ (l : List (Passed V)) (o : O) (n k : Nat), l.length ≤ k →
      Results (fun x => x.2.1 ≤ n ∧ (x.2.1 = 0 ∨ x.2.2 = k - l.length)) (sampleAlg out rnd l o n k) := by
  intro l
  induction l with
  | nil => intro o n k _; exact Results.pure ⟨Nat.le_refl _, .inr rfl⟩
  | cons a l ih =>
    intro o n k hk
    simp only [List.length_cons] at hk
    rw [sampleAlg]
    refine Results.ite (fun h0 => Results.pure ⟨Nat.le_refl _, .inl h0⟩)
      (fun _ => Results.anyBind fun r => Results.ite (fun _ => Results.anyBind fun o => ?_) (fun _ => ?_))
    · refine (ih o (n - 1) (k - 1) (by omega)).mono fun x hx => ?_
      simp only [List.length_cons]; omega
    · refine (ih o n (k - 1) (by omega)).mono fun x hx => ?_
      simp only [List.length_cons]; omega

theorem sampleInT_eq {c : Coll V} {w : World} (h : c.Core E w) (Ts : List Ty) (out : O → Passed V → m O) (rnd : (j : Nat) → m (Fin (j + 1)))
    {f : Bool} {ps : List SegInfo} {r : Nat} {l : List (Ty × V)} (hc : Cut E c f ps r l) :
    ∀ (o : O) (n : Nat), A.Is t n → A.Is t l.length → sampleInT A t E c Ts out rnd ps o n l.length = sampleIn E c Ts out rnd ps o n l.length := by
  induction hc with
  | nil => intro o n _ _; rfl
  | @cons f i is n a b r l hp hrk hz hc ih =>
    intro o k hk hl
    obtain ⟨rg, h1, h2, h3, h4⟩ := hp.rangeP E h Ts
    have hlen := sliceP_length (Ts := Ts) E hp
    have hlen' : (sliceOf n.seg a (b - a) ++ l).length = b - a + l.length := by
      rw [passed_length] at hlen
      rw [List.length_append, hlen]
    unfold sampleInT sampleIn
    rw [h1, defd_some, pure_bind, pure_bind, sampleAlgT_eq out rnd _ _ _ _ hk hl (.inl (by rw [h3, hlen, hlen']; omega)), bind_assoc]
    refine callBind_congr (sampleAlg_bounds out rnd _ o k _ (by rw [h3, hlen, hlen']; omega)) fun x hx => ?_
    rw [h3, hlen, hlen'] at hx
    rw [pure_bind]
    simp only [asInts]
    have hx' : A.Is t (x.2.1 : Int) := hk.mono (by omega) (by omega)
    simp only [eq_zero hx']
    by_cases h0 : x.2.1 = 0
    · simp [h0]
    · have h1 : ¬ (x.2.1 : Int) = 0 := by omega
      simp only [h0, h1, decide_false, Bool.false_eq_true, if_false]
      rw [show x.2.2 = l.length by omega]
      exact ih _ _ hx' (hl.mono (by omega) (by rw [hlen']; omega))

/-- What is left of the elements is not more than what is left of the distance, so only as many elements are looked at. -/
theorem sampleAlg_take (out : O → Passed V → m O) (rnd : (j : Nat) → m (Fin (j + 1))) (l' : List (Passed V)) :
    ∀ (l : List (Passed V)) (o : O) (n k : Nat), n ≤ k → k ≤ (l ++ l').length →
      StdAlg.sample out rnd ((l ++ l').take k) n o = sampleAlg out rnd l o n k >>= fun x => StdAlg.sample out rnd (l'.take x.2.2) x.2.1 x.1 := by
  intro l
  induction l with
  | nil => intro o n k _ _; simp [sampleAlg]
  | cons a l ih =>
    intro o n k hn hk
    have hz : ∀ l : List (Passed V), StdAlg.sample out rnd l 0 o = pure o := fun l => by cases l <;> rfl
    cases n with
    | zero => simp only [sampleAlg, if_true, pure_bind, hz]
    | succ n =>
      obtain ⟨k, rfl⟩ : ∃ j, k = j + 1 := ⟨k - 1, by omega⟩
      simp only [List.cons_append, List.length_cons] at hk
      have hl : ((l ++ l').take k).length = k := by rw [List.length_take]; omega
      rw [List.cons_append, List.take_succ_cons, StdAlg.sample, sampleAlg, if_neg (Nat.succ_ne_zero n), bind_assoc, hl]
      simp only [Nat.add_sub_cancel]
      refine bind_congr fun r => ?_
      have := r.isLt
      by_cases hr : r.val < n + 1
      · simp only [hr, if_true, bind_assoc]
        exact bind_congr fun o => ih _ _ _ (by omega) (by omega)
      · simp only [hr, if_false]
        exact ih _ _ _ (by omega) (by omega)

theorem sampleAlg_under (out : O → Passed V → m O) (rnd : (j : Nat) → m (Fin (j + 1))) :
    ∀ (l : List (Passed V)) (o : O) (n k : Nat), n ≤ k →
      Results (fun x => x.2.1 ≤ x.2.2 ∧ x.2.2 ≤ k ∧ (x.2.1 = 0 ∨ x.2.2 = k - l.length)) (sampleAlg out rnd l o n k) := by
  intro l
  induction l with
  | nil => intro o n k h; exact Results.pure ⟨h, Nat.le_refl _, .inr rfl⟩
  | cons a l ih =>
    intro o n k hk
    rw [sampleAlg]
    refine Results.ite (fun h0 => Results.pure ⟨hk, Nat.le_refl _, .inl h0⟩)
      (fun h0 => Results.anyBind fun r => Results.ite (fun hr => Results.anyBind fun o => ?_) (fun hr => ?_))
    · refine (ih o (n - 1) (k - 1) (by omega)).mono fun x hx => ?_
      simp only [List.length_cons]; omega
    · have := r.isLt
      refine (ih o n (k - 1) (by omega)).mono fun x hx => ?_
      simp only [List.length_cons]; omega

theorem sampleInT_take {c : Coll V} {w : World} (h : c.Core E w) (Ts : List Ty) (out : O → Passed V → m O) (rnd : (j : Nat) → m (Fin (j + 1)))
    {f : Bool} {ps : List SegInfo} {r : Nat} {l : List (Ty × V)} (hc : Cut E c f ps r l) :
    ∀ (o : O) (n k : Nat), A.Is t k → n ≤ k → k ≤ l.length →
      Sim Eq (sampleInT A t E c Ts out rnd ps o n k) (StdAlg.sample out rnd ((passed Ts l).take k) n o) := by
  induction hc with
  | nil => intro o n k _ _ _; rw [show (passed Ts ([] : List (Ty × V))).take k = [] from List.take_nil]; exact Sim.pure rfl
  | @cons f i is n a b r l hp hrk hz hc ih =>
    intro o j k hk hj hl
    obtain ⟨rg, h1, h2, h3, h4⟩ := hp.rangeP E h Ts
    have hlen := sliceP_length (Ts := Ts) E hp
    have hlen' : (sliceOf n.seg a (b - a) ++ l).length = b - a + l.length := by
      rw [passed_length] at hlen
      rw [List.length_append, hlen]
    have hj' : A.Is t (j : Int) := hk.mono (by omega) (by omega)
    rw [hlen'] at hl
    rw [passed_append, sampleAlg_take out rnd _ _ _ _ _ hj (by rw [List.length_append, hlen, passed_length]; exact hl), sampleInT]
    refine Sim.defd h1 ?_
    rw [h3, sampleAlgT_eq out rnd _ _ _ _ hj' hk (.inr hj), bind_assoc]
    refine (sampleAlg_under out rnd _ o j k hj).sim.bind fun x y hxy => ?_
    obtain ⟨rfl, hx1, hx2, hx3⟩ := hxy
    rw [pure_bind]
    simp only [asInts]
    have hx' : A.Is t (x.2.1 : Int) := hk.mono (by omega) (by omega)
    simp only [eq_zero hx']
    by_cases h0 : x.2.1 = 0
    · have : StdAlg.sample out rnd ((passed Ts l).take x.2.2) 0 x.1 = pure x.1 := by
        cases (passed Ts l).take x.2.2 <;> rfl
      rw [h0, this]
      simp only [Int.ofNat_zero, decide_true, if_true]
      exact Sim.pure rfl
    · have h1 : ¬ (x.2.1 : Int) = 0 := by omega
      simp only [h1, decide_false, Bool.false_eq_true, if_false]
      rw [hlen] at hx3
      exact ih _ _ _ (hk.mono (by omega) (by omega)) hx1 (by omega)

/-- With a negative distance there is nothing to draw from. -/
theorem sampleAlgT_negative (out : O → Passed V → m O) (rnd : (j : Nat) → m (Fin (j + 1))) {n k : Int} (hn : A.Is t n) (h0 : n < 0)
    (hk : A.lo t < k) (hk0 : k < 0) (l : List (Passed V)) (o : O) :
    sampleAlgT A t out rnd l o n k = if l = [] then pure (o, n, k) else failure := by
  cases l with
  | nil => rfl
  | cons a l =>
    have hs : t.signed = true := by
      rcases t with ⟨r, s⟩
      cases s
      · have := hn.1
        unfold Abi.lo at this
        simp at this; omega
      · rfl
    have hk' : A.Is t k := ⟨Int.le_of_lt hk, Int.le_trans (Int.le_of_lt hk0) (Int.le_trans (is_zero A t).2 (Int.le_refl _))⟩
    have hd : A.dec t k = some (k - 1) := by
      have hi1 : A.Is t (k - 1) := ⟨by omega, by have := hk'.2; omega⟩
      unfold Abi.dec Abi.subFrom Abi.fit
      rw [conv_is (is_common_int hk'), conv_is ((is_one A).right (by decide) t)]
      have hi2 := is_common_int hi1
      split
      · rw [Option.map_some, conv_is hi1]
      · rw [conv_is hi2, Option.map_some, conv_is hi1]
    rw [sampleAlgT, eq_zero hn]
    have h1 : ¬ n = 0 := by omega
    have h2 : k - 1 < 0 := by omega
    simp only [h1, decide_false, Bool.false_eq_true, if_false, hd, defd_some, pure_bind, h2, if_true, List.cons_ne_nil]

theorem sampleInT_negative {c : Coll V} {w : World} (h : c.Core E w) (Ts : List Ty) (out : O → Passed V → m O) (rnd : (j : Nat) → m (Fin (j + 1)))
    {f : Bool} {ps : List SegInfo} {r : Nat} {l : List (Ty × V)} (hc : Cut E c f ps r l) (hl : l ≠ []) (o : O) {n k : Int} (hn : A.Is t n) (h0 : n < 0)
    (hk : A.lo t < k) (hk0 : k < 0) : sampleInT A t E c Ts out rnd ps o n k = failure := by
  induction hc with
  | nil => exact absurd rfl hl
  | @cons f i is n' a b r l hp hrk hz hc ih =>
    obtain ⟨rg, h1, h2, h3, h4⟩ := hp.rangeP E h Ts
    unfold sampleInT
    rw [h1, defd_some, pure_bind, sampleAlgT_negative out rnd hn h0 hk hk0]
    by_cases he : rg.vals = []
    · rw [if_pos he, pure_bind]
      have h1 : ¬ n = 0 := by omega
      simp only [eq_zero hn, h1, decide_false, Bool.false_eq_true, if_false]
      refine ih fun e => hl ?_
      rw [e, List.append_nil]
      rw [h3, passed, List.map_eq_nil_iff] at he
      exact he
    · rw [if_neg he]
      exact OptionT.ext (by simp)

end Algo
end PolyColl
