import Verif.Lemmas.Counts
import Verif.Props.AlgorithmsMore
import Verif.Props.Causes
/-!
# Property C86: numbers of any integer type given to algorithms

`A.Is t n`: `n` is a value of the integer type `t` on the platform `A`.
-/

namespace PolyColl.Sample
open PolyColl Prog Coll Algo Props

/-- 64-bit Linux: `std::ptrdiff_t` is `long`. -/
def lp64 : Abi where
  width r := if r = 0 then 8 else if r = 1 then 16 else if r = 2 then 32 else 64
  mono := by intro r s h; split <;> (try split) <;> (try split) <;> (try split) <;> (try split) <;> (try split) <;> omega
  pos := by decide
  wide := by decide
  diff := 3

/-- 64-bit Windows: `std::ptrdiff_t` is `long long`. -/
def llp64 : Abi where
  width r := if r = 0 then 8 else if r = 1 then 16 else if r = 2 then 32 else if r = 3 then 32 else 64
  mono := by intro r s h; split <;> (try split) <;> (try split) <;> (try split) <;> (try split) <;> (try split) <;> (try split) <;> (try split) <;> omega
  pos := by decide
  wide := by decide
  diff := 4

/-- Room for many elements. -/
def roomy : Env Nat := { E0 with maxSize := fun _ => 100000, idxMaxSize := 100001 }

/-- A collection with many elements. -/
theorem many (k : Kind) (n : Nat) (h0 : 0 < n) (hn : n ≤ 100000) :
    ∃ c w, Coll.Reachable roomy k c w ∧ c.abs = [(0, List.replicate n 7)] := by
  have hu : Uses roomy k sub [] (fun _ => Coll.empty' k 0) ⟨1, 0⟩ := .start (fun _ => 0) ⟨1, 0⟩ (by decide)
  have hsub : ∀ t, roomy.tiTy (sub t) = t := fun t => Nat.mul_div_cancel_left t (by decide)
  have he : (Coll.empty' (V := Nat) k 0).abs = [] := by cases k <;> rfl
  have hp : (Op.on 0 (.insertRangeTerminal true 0 (List.replicate n (.copyExt 7)))).Pre roomy (fun _ => Coll.empty' k 0) := by
    intro src hs
    rw [(List.mem_replicate.1 hs).2]; rfl
  have hm : (Op.on 0 (.insertRangeTerminal true 0 (List.replicate n (.copyExt 7)))).Means roomy (fun _ => Coll.empty' k 0)
      (.on 0 (.insert 0 0 (List.replicate n 7))) := by
    refine ⟨_, ⟨List.replicate n 7, by simp only [List.map_replicate, Src.val], ?_⟩, rfl⟩
    rw [if_neg (by rw [List.replicate_eq_nil_iff]; omega), he]; rfl
  obtain ⟨s', w', h1, h2⟩ := C66_returns hsub hu (fun _ _ => rfl) hp (by
    rintro e' ⟨-, ⟨rfl, -⟩ | ⟨rfl, -⟩ | ⟨rfl, h⟩ | ⟨rfl, h, -⟩⟩
    · exact .inl rfl
    · exact .inr rfl
    · rw [he, List.length_replicate] at h
      unfold Env.TooMany at h
      have : roomy.maxSize (roomy.tiTy 0) = 100000 ∧ roomy.idxMaxSize = 100001 := ⟨rfl, rfl⟩
      have h0 : (Spec.State.elemsOf ([] : Spec.State Nat) (roomy.tiTy 0)).length = 0 := rfl
      omega
    · exact absurd h (by decide)) hm
  refine ⟨s' 0, w', ⟨sub, _, s', 0, hsub, uses_good (hu.ok _ _ hp.apt hm h1), rfl, rfl⟩, ?_⟩
  obtain ⟨-, -, s1, hs, h3⟩ := h2
  have hs : Spec.State.Ensure 0 [] s1 := he ▸ hs
  rcases hs with ⟨h, -⟩ | ⟨-, h⟩
  · cases h
  rw [show (s' 0).abs = _ from h3, List.perm_singleton.1 h]
  simp [Spec.State.insertAt, Spec.State.update]

/-- All elements of it. -/
theorem manyRange {k : Kind} {n : Nat} (h0 : 0 < n) {c : Coll Nat} {w : World} (h : Coll.Reachable roomy k c w) (e : c.abs = [(0, List.replicate n 7)]) :
    ∃ first, c.begin roomy = some first ∧ Range roomy c first c.end (some (0, 0)) none ∧ (c.abs.between (some (0, 0)) none).length = n := by
  obtain ⟨it, h1, h2⟩ := begin_at roomy h.inv
  have hf : c.abs.first = some (0, 0) := by
    obtain ⟨j, rfl⟩ : ∃ j, n = j + 1 := ⟨n - 1, by omega⟩
    rw [e]; rfl
  rw [hf] at h2
  refine ⟨it, h1, ⟨h2, at_end roomy c, by rw [e]; exact Nat.zero_le _⟩, ?_⟩
  rw [e]
  simp [Spec.State.between, Spec.State.typedFlat, Spec.State.rank, Spec.State.flat]

theorem manySize {n : Nat} {c : Coll Nat} (e : c.abs = [(0, List.replicate n 7)]) : c.size = n := by
  rw [size_abs, e]
  simp [Spec.State.flat]

end PolyColl.Sample

namespace PolyColl.Props
open PolyColl Prog Coll Algo

variable {V : Type} {E : Env V} {k : Kind} {m : Type → Type} [Monad m] [LawfulMonad m] {A : Abi} {t : IntTy}
variable {c : Coll V} {w : World} {first last : GIter} {p q : Spec.State.Pos}

/-! ### C86 -/

/-- **C86**: `for_each_n` with a number of any integer type does what it does with the number. -/
theorem C86_for_each_n {F : Type} (h : c.Reachable E k w) (hf : c.At E first p) {n : Int} (ht : A.Is t n) (hc : A.Is A.ptrdiff c.size)
    (hn : c.abs.rank p + n.toNat ≤ c.size) (Ts : List Ty) (f : F → Passed V → m F) (s : F) :
    ∃ z : m {a : (GIter × F) × F // (∃ p', c.At E a.1.1 p' ∧ c.abs.rank p' = c.abs.rank p + n.toNat) ∧ a.1.2 = a.2},
      (Algo.forEachNT A t E c Ts first n f s).run = (fun a => some a.1.1) <$> z ∧
      ((seen Ts c.abs p none).take n.toNat).foldlM f s = (fun a => a.1.2) <$> z := by
  rw [forEachNT_eq E (small_of E hc) Ts first ht]
  exact C43_for_each_n h hf n hn Ts f s

/-- Two elements from 2 on, the number being of type `unsigned char`. -/
example (k : Kind) : Sample.lp64.Is ⟨0, false⟩ 2 ∧ Sample.lp64.Is Sample.lp64.ptrdiff (Sample.c0 k).size ∧
    (Algo.forEachNT (m := Id) Sample.lp64 ⟨0, false⟩ Sample.E0 (Sample.c0 k) [0] (Sample.iter k 2) 2 (fun s x => s + x.val) 100).run.map (·.2) = some 105 := by
  have hz : (Sample.c0 k).size = 5 := by cases k <;> rfl
  have h1 : Sample.lp64.Is Sample.lp64.ptrdiff (Sample.c0 k).size := by rw [hz]; decide
  refine ⟨by decide, h1, ?_⟩
  obtain ⟨z, h2, h3⟩ := C86_for_each_n (m := Id) (A := Sample.lp64) (t := ⟨0, false⟩) (Sample.reach0 k) (range0 k).first (n := 2) (by decide) h1
    (by rw [Sample.abs0, hz]; decide) [0] (fun s x => s + x.val) 100
  rw [h2]
  have h4 : List.foldlM (m := Id) (fun s (x : Passed Nat) => s + x.val) 100 ((seen [0] (Sample.c0 k).abs (some (0, 1)) none).take (Int.toNat 2)) = 105 := by
    rw [Sample.abs0]; rfl
  exact congrArg some ((z.2.2.trans h3.symm).trans h4)

/-- **C86**: `search_n` with a number of any integer type. -/
theorem C86_search_n (h : c.Reachable E k w) (hr : Range E c first last p q) {count : Int} (ht : A.Is t count) (Ts : List Ty) (P : Passed V → m Bool) :
    Finds E c (c.abs.rank p) (Algo.searchNT A t E c Ts first last count P) (StdAlg.searchN P count (seen Ts c.abs p q)) := by
  rw [searchNT_eq E h.inv Ts P ht hr.at hr.last hr.le]
  exact C50_search_n h hr Ts count P

/-- A number of type `short`, on Windows. -/
example (k : Kind) := C86_search_n (m := Id) (A := Sample.llp64) (t := ⟨1, true⟩) (Sample.reach0 k) (range0 k) (count := 2) (by decide) [0]
  fun x => x.val % 2 == 1

/-- **C86**: `copy_n` with a number of type `std::ptrdiff_t`.  Missing are the other integer types: see
`C86_copy_n_ill_formed`. -/
theorem C86_copy_n_partial {O : Type} (h : c.Reachable E k w) (hf : c.At E first p) {n : Int} (ht : A.Is A.ptrdiff n) (hc : A.Is A.ptrdiff c.size)
    (hn : c.abs.rank p + n.toNat ≤ c.size) (Ts : List Ty) (out : O → Passed V → m O) (o : O) :
    ∃ x, Algo.copyNT A A.ptrdiff E c Ts first n out o = some x ∧
      x.run = some <$> StdAlg.copy out ((seen Ts c.abs p none).take n.toNat) o :=
  ⟨_, copyNT_eq E (small_of E hc) Ts first ht out o, C51_copy_n h hf n hn Ts out o⟩

example (k : Kind) : ∃ x, Algo.copyNT (m := Id) Sample.lp64 ⟨3, true⟩ Sample.E0 (Sample.c0 k) [0] (Sample.iter k 2) 2 appendTo [] = some x ∧
    x.run = some [⟨0, 2, true⟩, ⟨0, 3, true⟩] := by
  have hz : (Sample.c0 k).size = 5 := by cases k <;> rfl
  obtain ⟨x, h1, h2⟩ := C86_copy_n_partial (m := Id) (A := Sample.lp64) (Sample.reach0 k) (range0 k).first (n := 2) (by decide) (by rw [hz]; decide)
    (by rw [Sample.abs0, hz]; decide) [0] appendTo []
  refine ⟨x, h1, h2.trans ?_⟩
  rw [Sample.abs0]; rfl

omit [LawfulMonad m] in
/-- **C86 (violated by `copy_n`).**  A call of `copy_n` with a number of another type than `std::ptrdiff_t` does not compile. -/
theorem C86_copy_n_ill_formed {O : Type} (ht : t ≠ A.ptrdiff) (c : Coll V) (Ts : List Ty) (first : GIter) (n : Int) (out : O → Passed V → m O) (o : O) :
    Algo.copyNT A t E c Ts first n out o = none := if_neg ht

/-- `copy_n(first,2,out)`; and on Linux `long long` is not `std::ptrdiff_t` either, nor on Windows `long`. -/
example (k : Kind) : Algo.copyNT (m := Id) Sample.lp64 Abi.int Sample.E0 (Sample.c0 k) [0] (Sample.iter k 2) 2 appendTo [] = none ∧
    Algo.copyNT (m := Id) Sample.lp64 ⟨4, true⟩ Sample.E0 (Sample.c0 k) [0] (Sample.iter k 2) 2 appendTo [] = none ∧
    Algo.copyNT (m := Id) Sample.llp64 ⟨3, true⟩ Sample.E0 (Sample.c0 k) [0] (Sample.iter k 2) 2 appendTo [] = none :=
  ⟨C86_copy_n_ill_formed (by decide) .., C86_copy_n_ill_formed (by decide) .., C86_copy_n_ill_formed (by decide) ..⟩

/-- **C86**, what `sample` does for a number of any integer type, as long as the distance converted to that type is not
negative: it samples as if the range had no more elements than that. -/
theorem C86_sample_converted {O : Type} (h : c.Reachable E k w) (hr : Range E c first last p q) (hc : A.Is A.ptrdiff c.size) {n : Int} (hn : 0 ≤ n)
    (hd : 0 ≤ A.conv t (c.abs.between p q).length) (Ts : List Ty) (out : O → Passed V → m O) (o : O) (rnd : (j : Nat) → m (Fin (j + 1))) :
    (Algo.sampleT A t E c Ts first last out o n rnd).run =
      some <$> StdAlg.sample out rnd ((seen Ts c.abs p q).take (A.conv t (c.abs.between p q).length).toNat)
        (min n.toNat (A.conv t (c.abs.between p q).length).toNat) o := by
  obtain ⟨ps, h1, h2⟩ := hr.cut h
  obtain ⟨hd1, -, hd2⟩ := C46_distance h hr
  rw [← hd2] at hd1
  have hle : (c.abs.between p q).length ≤ c.size := by
    have := Spec.State.rank_le (hr.last.valid E h.map)
    rw [hd2, size_abs]; omega
  have hdi := Abi.difference_eq (A := A) (hc.mono (Int.natCast_nonneg _) (Int.ofNat_le.2 hle))
  have hk : A.Is t ((A.conv t (c.abs.between p q).length).toNat : Int) := by
    rw [Int.toNat_of_nonneg hd]; exact Abi.is_conv A t _
  have hkl : (A.conv t (c.abs.between p q).length).toNat ≤ (c.abs.between p q).length := by
    have := Abi.conv_le A t (z := (c.abs.between p q).length) (Int.natCast_nonneg _)
    omega
  rw [← hd1] at hdi
  refine (Sim.defd (hdi.trans hd1) (Sim.defd h1 ?_)).eq
  have := sampleInT_take E (h.inv.core E) Ts out rnd h2 o (min n.toNat (A.conv t (c.abs.between p q).length).toNat) _ hk (Nat.min_le_right _ _) hkl
  rwa [show ((min n.toNat (A.conv t (c.abs.between p q).length).toNat : Nat) : Int) = min n (A.conv t (c.abs.between p q).length) by omega,
    Int.toNat_of_nonneg hd] at this

/-- 300 elements and a number of type `unsigned char`: only the first 44 are looked at. -/
example (k : Kind) : ∃ c w first, Coll.Reachable Sample.roomy k c w ∧ Range Sample.roomy c first c.end (some (0, 0)) none ∧
    (c.abs.between (some (0, 0)) none).length = 300 ∧ Sample.lp64.Is Sample.lp64.ptrdiff c.size ∧ Sample.lp64.conv ⟨0, false⟩ 300 = 44 := by
  obtain ⟨c, w, h, e⟩ := Sample.many k 300 (by decide) (by decide)
  obtain ⟨first, -, hr, hl⟩ := Sample.manyRange (by decide) h e
  refine ⟨c, w, first, h, hr, hl, ?_, by decide⟩
  rw [Sample.manySize e]; decide

/-- **C86**: `sample` with a number of an integer type that has the number of elements of the range among its values.
Missing are types that have not: see `C86_sample_converted`, `C86_sample_nothing` and `C86_sample_undefined`. -/
theorem C86_sample_partial {O : Type} (h : c.Reachable E k w) (hr : Range E c first last p q) (hc : A.Is A.ptrdiff c.size) {n : Int} (hn : 0 ≤ n)
    (hd : A.Is t (c.abs.between p q).length) (Ts : List Ty) (out : O → Passed V → m O) (o : O) (rnd : (j : Nat) → m (Fin (j + 1))) :
    (Algo.sampleT A t E c Ts first last out o n rnd).run =
      some <$> StdAlg.sample out rnd (seen Ts c.abs p q) (min n.toNat (c.abs.between p q).length) o := by
  have e : A.conv t (c.abs.between p q).length = (c.abs.between p q).length := Abi.conv_is hd
  have hl : (seen Ts c.abs p q).length = (c.abs.between p q).length := by unfold seen; rw [List.length_map]
  rw [C86_sample_converted h hr hc hn (by rw [e]; exact Int.natCast_nonneg _), e, Int.toNat_natCast, ← hl, List.take_length]

example (k : Kind) := C86_sample_partial (m := Id) (A := Sample.lp64) (t := ⟨0, true⟩) (Sample.reach0 k) (range0 k)
  (by rw [show (Sample.c0 k).size = 5 by cases k <;> rfl]; decide) (n := 2) (by decide)
  (by rw [show ((Sample.c0 k).abs.between (some (0, 1)) none).length = 3 by rw [Sample.abs0]; rfl]; decide) [0] appendTo []

/-- **C86 (violated by `sample`).**  If the distance of the range is converted to zero, nothing is written, whatever the
number asked for. -/
theorem C86_sample_nothing {O : Type} (h : c.Reachable E k w) (hr : Range E c first last p q) (hc : A.Is A.ptrdiff c.size) {n : Int} (hn : 0 ≤ n)
    (hd : A.conv t (c.abs.between p q).length = 0) (Ts : List Ty) (out : O → Passed V → m O) (o : O) (rnd : (j : Nat) → m (Fin (j + 1))) :
    (Algo.sampleT A t E c Ts first last out o n rnd).run = pure (some o) := by
  rw [C86_sample_converted h hr hc hn (by rw [hd]; exact Int.le_refl _), hd]
  rw [show (seen Ts c.abs p q).take (0 : Int).toNat = [] from rfl, StdAlg.sample, map_pure]

/-- **C86**, the violation: there are 65536 elements, three of them are asked for with a number of type `unsigned short`, and
none is given. -/
theorem C86_sample_lost (k : Kind) : ∃ c w first, Coll.Reachable Sample.roomy k c w ∧ c.begin Sample.roomy = some first ∧ c.size = 65536 ∧
    Sample.lp64.Is ⟨1, false⟩ 3 ∧ Sample.lp64.Is Sample.lp64.ptrdiff c.size ∧
    ∀ rnd, (Algo.sampleT (m := Id) Sample.lp64 ⟨1, false⟩ Sample.roomy c [] first c.end appendTo [] 3 rnd).run = some [] := by
  obtain ⟨c, w, h, e⟩ := Sample.many k 65536 (by decide) (by decide)
  obtain ⟨first, hb, hr, hl⟩ := Sample.manyRange (by decide) h e
  have hz := Sample.manySize e
  have h1 : Sample.lp64.Is Sample.lp64.ptrdiff c.size := by rw [hz]; decide
  exact ⟨c, w, first, h, hb, hz, by decide, h1, fun rnd => C86_sample_nothing h hr h1 (by decide) (by rw [hl]; decide) [] appendTo [] rnd⟩

/-- **C86 (violated by `sample`).**  If the distance of the range is converted to a negative number, the behaviour is
undefined (unless it is the smallest value of the type). -/
theorem C86_sample_undefined {O : Type} (h : c.Reachable E k w) (hr : Range E c first last p q) (hc : A.Is A.ptrdiff c.size) {n : Int} (hn : 0 ≤ n)
    (hd : A.conv t (c.abs.between p q).length < 0) (hl : A.lo t < A.conv t (c.abs.between p q).length) (Ts : List Ty) (out : O → Passed V → m O) (o : O)
    (rnd : (j : Nat) → m (Fin (j + 1))) :
    (Algo.sampleT A t E c Ts first last out o n rnd).run = pure none := by
  obtain ⟨ps, h1, h2⟩ := hr.cut h
  obtain ⟨hd1, -, hd2⟩ := C46_distance h hr
  rw [← hd2] at hd1
  have hle : (c.abs.between p q).length ≤ c.size := by
    have := Spec.State.rank_le (hr.last.valid E h.map)
    rw [hd2, size_abs]; omega
  have hdi := Abi.difference_eq (A := A) (hc.mono (Int.natCast_nonneg _) (Int.ofNat_le.2 hle))
  have hne : c.abs.between p q ≠ [] := by
    intro e
    rw [e, List.length_nil, Int.natCast_zero, Abi.conv_is (Abi.is_zero A t)] at hd
    exact absurd hd (by decide)
  unfold Algo.sampleT
  rw [hd1, hdi, h1, defd_some, defd_some, pure_bind, pure_bind, Int.min_eq_right (by omega),
    sampleInT_negative E (h.inv.core E) Ts out rnd h2 hne o (Abi.is_conv A t _) hd hl hd]
  rfl

/-- **C86**, the violation: 40000 elements and a number of type `short`. -/
theorem C86_sample_ub (k : Kind) : ∃ c w first, Coll.Reachable Sample.roomy k c w ∧ c.begin Sample.roomy = some first ∧ c.size = 40000 ∧
    Sample.lp64.Is ⟨1, true⟩ 3 ∧ Sample.lp64.Is Sample.lp64.ptrdiff c.size ∧
    ∀ rnd, (Algo.sampleT (m := Id) Sample.lp64 ⟨1, true⟩ Sample.roomy c [] first c.end appendTo [] 3 rnd).run = none := by
  obtain ⟨c, w, h, e⟩ := Sample.many k 40000 (by decide) (by decide)
  obtain ⟨first, hb, hr, hl⟩ := Sample.manyRange (by decide) h e
  have hz := Sample.manySize e
  have h1 : Sample.lp64.Is Sample.lp64.ptrdiff c.size := by rw [hz]; decide
  exact ⟨c, w, first, h, hb, hz, by decide, h1,
    fun rnd => C86_sample_undefined h hr h1 (by decide) (by rw [hl]; decide) (by rw [hl]; decide) [] appendTo [] rnd⟩

end PolyColl.Props
