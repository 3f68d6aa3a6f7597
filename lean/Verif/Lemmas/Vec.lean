import Verif.Lemmas.Runs
/-! # What the vector operations of the model guarantee -/

namespace PolyColl
open Prog

/-- The value a source stands for, given the segment's store. -/
def Src.val {V : Type} (s : Vec V) : Src V → Option V
  | .copyExt v => some v
  | .copyAlias p => s.deref p
  | .moveExt v => some v
  | .emplaced v => some v

/-- The source is copied from. -/
def Src.copies {V : Type} : Src V → Bool
  | .copyExt _ => true
  | .copyAlias _ => true
  | .moveExt _ => false
  | .emplaced _ => false

/-- The source does not refer into the store. -/
def Src.ext {V : Type} : Src V → Bool
  | .copyAlias _ => false
  | _ => true

/-- Exceptions an operation on elements of type `t` may throw; `copies` tells whether it copies
elements other than for relocation, `len` when a length error is possible. -/
def ExcFrom {V : Type} (E : Env V) (t : Ty) (copies len : Prop) (e : Exc) : Prop :=
  (e = .badAlloc ∧ ∃ n, E.fault n = true) ∨ (e = .user ∧ ∃ n, E.fault n = true) ∨
  (e = .lengthError ∧ len) ∨
  (e = .notCopyConstructible t ∧ (E.traits t).copyable = false ∧
    (copies ∨ (E.traits t).nothrowMove = false))

theorem ExcFrom.mono {V : Type} {E : Env V} {t : Ty} {c c' l l' : Prop} {e : Exc}
    (h : ExcFrom E t c l e) (hc : c → c') (hl : l → l') : ExcFrom E t c' l' e := by
  unfold ExcFrom at *; grind

namespace Vec
variable {α : Type}

/-- Well-formed vector: size within capacity, buffer allocated before now, capacity
exactly when there is a buffer. -/
structure WF (s : Vec α) (w : World) : Prop where
  lt : s.blk < w.next
  le : s.size ≤ s.cap
  nul : s.blk = 0 ↔ s.cap = 0

/-- Same buffer. -/
def Same (s s' : Vec α) : Prop := s'.blk = s.blk ∧ s'.cap = s.cap

/-- Where the buffer of a vector is after an operation: the same, a new one, or none. -/
def Moved (w : World) (s s' : Vec α) : Prop :=
  Same s s' ∨ (s'.blk = 0 ∧ s'.cap = 0) ∨ w.next ≤ s'.blk

theorem WF.weaken {s : Vec α} {w w' : World} (h : s.WF w) (hw : w.next ≤ w'.next) : s.WF w' :=
  ⟨Nat.lt_of_lt_of_le h.lt hw, h.le, h.nul⟩

theorem Same.refl (s : Vec α) : Same s s := ⟨rfl, rfl⟩

theorem Moved.refl (w : World) (s : Vec α) : Moved w s s := Or.inl (Same.refl s)

theorem Moved.trans {w w' : World} {a b c : Vec α} (h1 : Moved w a b) (h2 : Moved w' b c)
    (hw : w.next ≤ w'.next) : Moved w a c := by
  unfold Moved Same at *; omega

theorem nil_WF {w : World} (h : 0 < w.next) : (nil : Vec α).WF w := ⟨h, Nat.le_refl _, by simp [nil]⟩

theorem posOf_ptr {s : Vec α} {n : Nat} (h : n ≤ s.size) : s.posOf (s.ptr n) = some n := by
  simp [posOf, ptr, h]

theorem posOf_eq_some {s : Vec α} {p : Ptr} {n : Nat} :
    s.posOf p = some n ↔ p = s.ptr n ∧ n ≤ s.size := by
  unfold posOf ptr
  constructor
  · intro h
    split at h
    · rename_i hh
      cases h
      exact ⟨by cases p; simp_all, hh.2⟩
    · cases h
  · rintro ⟨rfl, h⟩
    simp [h]

theorem deref_ptr {s : Vec α} {n : Nat} : s.deref (s.ptr n) = s.elems[n]? := by
  simp [deref, ptr]

end Vec

namespace Env
variable {V : Type} (E : Env V) {X : Type}

theorem copyVH_runs (t : Ty) (x : X) (w : World) :
    Runs (E.copyVH t : Prog X Unit) x w
      (fun _ x' w' => x' = x ∧ w'.next = w.next ∧ (E.traits t).copyable = true)
      (fun e x' w' => x' = x ∧ w'.next = w.next ∧ ExcFrom E t True False e) := by
  unfold copyVH ExcFrom
  simp only [runs_ite, runs_userOp, runs_raise]
  grind

theorem moveVH_runs (t : Ty) (x : X) (w : World) :
    Runs (E.moveVH t : Prog X Unit) x w
      (fun _ x' w' => x' = x ∧ w'.next = w.next)
      (fun e x' w' => x' = x ∧ w'.next = w.next ∧ e = .user ∧ (∃ n, E.fault n = true) ∧
        (E.traits t).nothrowMove = false) := by
  unfold moveVH
  simp only [runs_userOp]
  grind

/-- Running an operation that leaves the object alone on each element of a list. -/
theorem each_runs {β : Type} (f : β → Prog X Unit) (l : List β) (x : X) (w : World) (P : Exc → Prop)
    (C : Prop)
    (hf : ∀ b ∈ l, ∀ w, Runs (f b) x w (fun _ x' w' => x' = x ∧ w'.next = w.next ∧ C)
      (fun e x' w' => x' = x ∧ w'.next = w.next ∧ P e)) :
    Runs (each f l) x w (fun _ x' w' => x' = x ∧ w'.next = w.next ∧ (l ≠ [] → C))
      (fun e x' w' => x' = x ∧ w'.next = w.next ∧ P e) := by
  induction l generalizing w with
  | nil => simp
  | cons b bs ih =>
    rw [runs_each_cons]
    refine (hf b (by simp) w).mono ?_ ?_
    · rintro _ x' w' ⟨rfl, h, hc⟩
      refine (ih w' (fun b hb => hf b (by simp [hb]))).mono ?_ ?_
      · rintro _ _ _ ⟨rfl, h', -⟩; exact ⟨rfl, by omega, fun _ => hc⟩
      · rintro _ _ _ ⟨rfl, h', h''⟩; exact ⟨rfl, by omega, h''⟩
    · rintro _ _ _ ⟨rfl, h', h''⟩; exact ⟨rfl, h', h''⟩

theorem relocate_runs (t : Ty) (l : List V) (x : X) (w : World) :
    Runs (E.relocate t l : Prog X Unit) x w
      (fun _ x' w' => x' = x ∧ w'.next = w.next)
      (fun e x' w' => x' = x ∧ w'.next = w.next ∧ ExcFrom E t False False e) := by
  unfold relocate
  rw [runs_ite]
  refine ⟨fun _ => by simp, fun hm => ?_⟩
  refine (each_runs _ l x w (ExcFrom E t False False) True (fun b _ w => ?_)).mono ?_ ?_
  · refine (E.copyVH_runs t x w).mono ?_ ?_
    · rintro _ _ _ ⟨rfl, h, -⟩; exact ⟨rfl, h, trivial⟩
    · rintro e _ _ ⟨rfl, h, h'⟩; refine ⟨rfl, h, ?_⟩
      unfold ExcFrom at *; grind
  · rintro _ _ _ ⟨rfl, h, -⟩; exact ⟨rfl, h⟩
  · exact fun _ _ _ h => h

theorem construct_runs (t : Ty) (src : Src V) (s : Vec V) (w : World) (v : V) (hv : src.val s = some v) :
    Runs (E.construct t src) s w
      (fun a s' w' => a = v ∧ s' = s ∧ w'.next = w.next ∧ (src.copies → (E.traits t).copyable = true))
      (fun e s' w' => s' = s ∧ w'.next = w.next ∧ ExcFrom E t src.copies False e) := by
  unfold construct
  cases src with
  | copyExt u =>
    simp only [Src.val, Option.some.injEq] at hv
    simp only [runs_bind]
    refine (E.copyVH_runs t s w).mono ?_ ?_ <;> simp [Src.copies, hv] <;> grind
  | copyAlias p =>
    simp only [Src.val] at hv
    simp only [runs_bind, runs_get, hv, runs_some]
    refine (E.copyVH_runs t s w).mono ?_ ?_ <;> simp [Src.copies] <;> grind
  | moveExt u =>
    simp only [Src.val, Option.some.injEq] at hv
    simp only [runs_bind]
    refine (E.moveVH_runs t s w).mono ?_ ?_ <;> simp [Src.copies, hv, ExcFrom] <;> grind
  | emplaced u =>
    simp only [Src.val, Option.some.injEq] at hv
    simp [Src.copies, hv, ExcFrom]; grind

/-- The same for a list of sources that do not change meanwhile. -/
theorem mapAll_construct_runs (t : Ty) (srcs : List (Src V)) (s : Vec V) (w : World) (vs : List V)
    (hv : srcs.map (Src.val s) = vs.map some) :
    Runs (mapAll (E.construct t) srcs) s w
      (fun a s' w' => a = vs ∧ s' = s ∧ w'.next = w.next ∧
        ((∃ src ∈ srcs, src.copies) → (E.traits t).copyable = true))
      (fun e s' w' => s' = s ∧ w'.next = w.next ∧ ExcFrom E t (∃ src ∈ srcs, src.copies) False e) := by
  induction srcs generalizing w vs with
  | nil =>
    cases vs with
    | nil => simp [mapAll]
    | cons => simp at hv
  | cons src srcs ih =>
    cases vs with
    | nil => simp at hv
    | cons v vs =>
      simp only [List.map_cons, List.cons.injEq] at hv
      simp only [mapAll, runs_bind']
      refine (E.construct_runs t src s w v hv.1).mono ?_ ?_
      · rintro a s' w' ⟨rfl, rfl, h, hc⟩
        refine (ih w' vs hv.2).mono ?_ ?_
        · rintro as _ w'' ⟨rfl, rfl, h', hc'⟩
          simp only [runs_pure']
          refine ⟨by trivial, trivial, by omega, ?_⟩
          rintro ⟨x, hx, hxc⟩
          rcases List.mem_cons.1 hx with rfl | hx
          · exact hc hxc
          · exact hc' ⟨x, hx, hxc⟩
        · rintro e _ w'' ⟨rfl, h', he⟩
          refine ⟨rfl, by omega, he.mono ?_ id⟩
          rintro ⟨x, hx, hxc⟩; exact ⟨x, by simp [hx], hxc⟩
      · rintro e _ w'' ⟨rfl, h', he⟩
        exact ⟨rfl, h', he.mono (fun h => ⟨src, by simp, h⟩) id⟩

theorem junkList_length (seed n : Nat) : (E.junkList seed n).length = n := by simp [junkList]

/-- Can shifting elements of type t within a buffer throw? -/
def shiftThrows (t : Ty) : Prop := ¬((E.traits t).nothrowMove = true ∧ (E.traits t).nothrowAssign = true)

/-! ### Vectors of elements -/

theorem reserve_runs (t : Ty) (n : Nat) (s : Vec V) (w : World) (h : s.WF w) :
    Runs (E.reserve t n) s w
      (fun _ s' w' => s'.elems = s.elems ∧ s'.WF w' ∧ w.next ≤ w'.next ∧ n ≤ s'.cap ∧ s.cap ≤ s'.cap ∧
        n ≤ E.maxSize t ∧ (n ≤ s.cap → s' = s) ∧ (s.cap < n → w.next ≤ s'.blk ∧ s'.cap = E.lib.reserveCap n))
      (fun e s' w' => s' = s ∧ w.next ≤ w'.next ∧ ExcFrom E t False (E.maxSize t < n) e) := by
  unfold reserve
  simp only [runs_bind, runs_get, runs_ite, runs_alloc, runs_raise, runs_pure, runs_set]
  refine ⟨fun h1 => by grind [ExcFrom], fun h1 => ⟨fun h2 => by grind, fun h2 => ⟨fun hf => by grind [ExcFrom], fun hf => ?_⟩⟩⟩
  refine (E.relocate_runs t s.elems s _).mono ?_ ?_
  · rintro _ s' w' ⟨rfl, hw⟩
    have h1 := E.lib.reserveCap_ge n
    have h2 := h.le
    have h3 := h.lt
    simp only [Vec.size] at *
    refine ⟨by trivial, ⟨?_, ?_, ?_⟩, ?_, h1, ?_, ?_, ?_, ?_⟩ <;> (try simp [Vec.size]) <;> omega
  · rintro e s' w' ⟨rfl, hw, he⟩
    exact ⟨rfl, by simp at hw; omega, he.mono id False.elim⟩

theorem spoil_runs (lo hi : Nat) (s : Vec V) (w : World) {Q : Unit → Vec V → World → Prop} {R}
    (h : lo ≤ hi) (hQ : ∀ s', Vec.Same s s' → lo ≤ s'.size → s'.size ≤ hi → Q () s' w) :
    Runs (E.spoil lo hi) s w Q R := by
  unfold spoil Runs
  have : E.junkLen w.tick % (hi - lo + 1) < hi - lo + 1 := Nat.mod_lt _ (by omega)
  exact hQ _ ⟨rfl, rfl⟩ (by simp [Vec.size, junkList_length]) (by simp only [Vec.size, junkList_length]; omega)

theorem emplaceBack_runs (t : Ty) (src : Src V) (s : Vec V) (w : World) (h : s.WF w) (v : V)
    (hv : src.val s = some v) :
    Runs (E.emplaceBack t src) s w
      (fun _ s' w' => s'.elems = s.elems ++ [v] ∧ s'.WF w' ∧ w.next ≤ w'.next ∧
        (s.size < s.cap → Vec.Same s s') ∧
        (¬ s.size < s.cap → w.next ≤ s'.blk ∧ s'.cap = E.lib.growCap (E.maxSize t) s.size (s.size + 1) ∧
          s.size < E.maxSize t) ∧
        (src.copies → (E.traits t).copyable = true))
      (fun e s' w' => s' = s ∧ w.next ≤ w'.next ∧ ExcFrom E t src.copies (E.maxSize t ≤ s.size) e) := by
  unfold emplaceBack
  simp only [runs_bind, runs_get, runs_ite, runs_alloc, runs_raise, runs_set]
  have hlt := h.lt
  have hle := h.le
  refine ⟨fun h1 => ?_, fun h1 => ⟨fun h2 => by grind [ExcFrom], fun h2 => ⟨fun hf => by grind [ExcFrom], fun hf => ?_⟩⟩⟩
  · refine (E.construct_runs t src s w v hv).mono ?_ ?_
    · rintro a s' w' ⟨rfl, rfl, hw, hc⟩
      refine ⟨by trivial, ⟨by simp; omega, by simp only [Vec.size, List.length_append, List.length_singleton] at *; omega, h.nul⟩, by omega, fun _ => ⟨rfl, rfl⟩, fun h => absurd h1 h, hc⟩
    · rintro e s' w' ⟨rfl, hw, he⟩
      exact ⟨rfl, by omega, he.mono id False.elim⟩
  · refine (E.construct_runs t src s _ v hv).mono ?_ ?_
    · rintro a s' w' ⟨rfl, rfl, hw, hc⟩
      refine (E.relocate_runs t _ _ _).mono ?_ ?_
      · rintro _ s'' w'' ⟨rfl, hw'⟩
        have h3 := E.lib.growCap_ge (E.maxSize t) s''.size (s''.size + 1)
        simp only at hw
        refine ⟨by trivial, ⟨by simp; omega, by simpa [Vec.size] using h3, by simp; omega⟩, by omega, fun h => absurd h h1, fun _ => ⟨by simp, by simp, by omega⟩, hc⟩
      · rintro e s'' w'' ⟨rfl, hw', he⟩
        simp only at hw
        exact ⟨rfl, by omega, he.mono False.elim False.elim⟩
    · rintro e s' w' ⟨rfl, hw, he⟩
      simp only at hw
      exact ⟨rfl, by omega, he.mono id False.elim⟩

theorem emplaceAt_runs (t : Ty) (n : Nat) (src : Src V) (s : Vec V) (w : World) (h : s.WF w) (v : V)
    (hn : n ≤ s.size) (hv : src.val s = some v) :
    Runs (E.emplaceAt t n src) s w
      (fun _ s' w' => s'.elems = s.elems.insertIdx n v ∧ s'.WF w' ∧ w.next ≤ w'.next ∧
        (s.size < s.cap → Vec.Same s s') ∧
        (¬ s.size < s.cap → w.next ≤ s'.blk ∧ s'.cap = E.lib.growCap (E.maxSize t) s.size (s.size + 1) ∧
          s.size < E.maxSize t) ∧
        (src.copies → (E.traits t).copyable = true))
      (fun e s' w' => (s' = s ∨ (E.shiftThrows t ∧ n < s.size ∧ s.size < s.cap ∧ e = .user ∧
            Vec.Same s s' ∧ s.size ≤ s'.size ∧ s'.size ≤ s.size + 1)) ∧
        w.next ≤ w'.next ∧ ExcFrom E t src.copies (E.maxSize t ≤ s.size) e) := by
  unfold emplaceAt
  simp only [runs_bind, runs_get, runs_ite, runs_undef]
  have hlt := h.lt
  have hle := h.le
  refine ⟨fun h0 => by omega, fun _ => ⟨fun hn' => ?_, fun hn' => ⟨fun h1 => ?_, fun h1 => ?_⟩⟩⟩
  · subst hn'
    refine (E.emplaceBack_runs t src s w h v hv).mono ?_ ?_
    · rintro a s' w' ⟨h1, h2⟩
      refine ⟨by rw [h1]; simp [Vec.size, List.insertIdx_length_self], h2⟩
    · rintro e s' w' ⟨h1, h2⟩
      exact ⟨Or.inl h1, h2⟩
  · refine (E.construct_runs t src s w v hv).mono ?_ ?_
    · rintro a s' w' ⟨rfl, rfl, hw, hc⟩
      simp only [shift, runs_onExc, runs_userOp, runs_set]
      have hl : (s'.elems.insertIdx n a).length = s'.elems.length + 1 := List.length_insertIdx_of_le_length hn _
      simp only [Vec.size] at *
      have key : ∀ w'' : World, w''.next = w'.next → (s'.elems.insertIdx n a = s'.elems.insertIdx n a ∧ ({ s' with elems := s'.elems.insertIdx n a} : Vec V).WF w'' ∧
          w.next ≤ w''.next ∧ (s'.elems.length < s'.cap → Vec.Same s' { s' with elems := s'.elems.insertIdx n a}) ∧
          (¬s'.elems.length < s'.cap → w.next ≤ s'.blk ∧ s'.cap = E.lib.growCap (E.maxSize t) s'.elems.length (s'.elems.length + 1) ∧ s'.elems.length < E.maxSize t) ∧
          (src.copies → (E.traits t).copyable = true)) := by
        intro w'' hw'
        refine ⟨rfl, ⟨by simp; omega, by simp only [Vec.size]; omega, h.nul⟩, by omega, fun _ => ⟨rfl, rfl⟩, fun h => absurd h1 h, hc⟩
      refine ⟨fun _ => ⟨by trivial, (key w' rfl).2⟩, fun hb => ⟨fun hf => ?_, fun hf => ⟨by trivial, (key ⟨w'.next, w'.tick + 1⟩ rfl).2⟩⟩⟩
      simp only [Runs]
      have : E.junkLen (w'.tick + 1) % 2 < 2 := Nat.mod_lt _ (by omega)
      refine ⟨Or.inr ⟨?_, by omega, h1, trivial, ⟨by rfl, by rfl⟩, ?_, ?_⟩, by simp only; omega, ?_⟩
      · unfold shiftThrows; simpa using hb
      · rw [junkList_length]; omega
      · rw [junkList_length, show s'.elems.length + 1 - s'.elems.length + 1 = 2 by omega]; omega
      · simp [ExcFrom]; exact ⟨_, hf⟩
    · rintro e s' w' ⟨rfl, hw, he⟩
      exact ⟨Or.inl rfl, by omega, he.mono id False.elim⟩
  · simp only [runs_alloc, runs_raise, runs_set]
    refine ⟨fun h2 => by grind [ExcFrom], fun h2 => ⟨fun hf => by grind [ExcFrom], fun hf => ?_⟩⟩
    refine (E.construct_runs t src s _ v hv).mono ?_ ?_
    · rintro a s' w' ⟨rfl, rfl, hw, hc⟩
      refine (E.relocate_runs t _ _ _).mono ?_ ?_
      · rintro _ s'' w'' ⟨rfl, hw'⟩
        have h3 := E.lib.growCap_ge (E.maxSize t) s''.size (s''.size + 1)
        have hl : (s''.elems.insertIdx n a).length = s''.elems.length + 1 := List.length_insertIdx_of_le_length hn _
        simp only [Vec.size] at *
        refine ⟨by trivial, ⟨by simp; omega, by simp only [Vec.size]; omega, by simp; omega⟩, by omega, fun h => absurd h h1, fun _ => ⟨by simp, by simp, by omega⟩, hc⟩
      · rintro e s'' w'' ⟨rfl, hw', he⟩
        simp only at hw
        exact ⟨Or.inl rfl, by omega, he.mono False.elim False.elim⟩
    · rintro e s' w' ⟨rfl, hw, he⟩
      simp only at hw
      exact ⟨Or.inl rfl, by omega, he.mono id False.elim⟩

theorem insertRange_runs (t : Ty) (n : Nat) (srcs : List (Src V)) (s : Vec V) (w : World)
    (h : s.WF w) (vs : List V) (hn : n ≤ s.size) (hv : srcs.map (Src.val s) = vs.map some) :
    Runs (E.insertRange t n srcs) s w
      (fun _ s' w' => s'.elems = s.elems.take n ++ vs ++ s.elems.drop n ∧ s'.WF w' ∧ w.next ≤ w'.next ∧
        (s.size + srcs.length ≤ s.cap → Vec.Same s s') ∧
        (¬ s.size + srcs.length ≤ s.cap → w.next ≤ s'.blk ∧ s.size + srcs.length ≤ E.maxSize t) ∧
        ((∃ src ∈ srcs, src.copies) → (E.traits t).copyable = true))
      (fun e s' w' => (s' = s ∨ (n < s.size ∧ s.size + srcs.length ≤ s.cap ∧
            Vec.Same s s' ∧ s.size ≤ s'.size ∧ s'.size ≤ s.size + srcs.length)) ∧
        w.next ≤ w'.next ∧
        ExcFrom E t (∃ src ∈ srcs, src.copies) (E.maxSize t < s.size + srcs.length) e) := by
  unfold insertRange
  simp only [runs_bind, runs_get, runs_ite, runs_undef, runs_pure, runs_alloc, runs_raise, runs_set, runs_onExc]
  have hlt := h.lt
  have hle := h.le
  have hlen : srcs.length = vs.length := by
    have := congrArg List.length hv; simpa using this
  have hsz : ∀ b c, Vec.size (⟨b, c, s.elems.take n ++ vs ++ s.elems.drop n⟩ : Vec V) = s.size + srcs.length := by
    intro b c
    simp only [Vec.size, List.length_append, List.length_take, List.length_drop] at *
    omega
  refine ⟨fun h0 => by omega, fun _ => ⟨fun hs => ?_, fun hs => ⟨fun hc => ⟨fun hn' => ?_, fun hn' => ?_⟩,
    fun hc => ⟨fun hm => ?_, fun hm => ⟨fun hf => ?_, fun hf => ?_⟩⟩⟩⟩⟩
  · subst hs
    cases vs with
    | nil => simp [h, Vec.Same]; intro; omega
    | cons => simp at hlen
  · subst hn'
    refine (E.mapAll_construct_runs t srcs s w vs hv).mono ?_ ?_
    · rintro a s' w' ⟨rfl, rfl, hw, hcp⟩
      have := hsz s'.blk s'.cap
      refine ⟨by simp [Vec.size], ⟨by simp; omega, ?_, h.nul⟩, by omega, fun _ => ⟨rfl, rfl⟩, fun h => absurd hc h, hcp⟩
      simp only [Vec.size, List.length_append] at *; omega
    · rintro e s' w' ⟨rfl, hw, he⟩
      exact ⟨Or.inl rfl, by omega, he.mono id False.elim⟩
  · have hq : ∀ w', w'.next = w.next → Runs (mapAll (E.construct t) srcs) s w'
      (fun a s' w' => a = vs ∧ s' = s ∧ w'.next = w.next ∧ ((∃ src ∈ srcs, src.copies) → (E.traits t).copyable = true))
      (fun e s' w'' => s' = s ∧ w''.next = w.next ∧ ExcFrom E t (∃ src ∈ srcs, src.copies) False e) := by
      intro w' hw'
      exact (E.mapAll_construct_runs t srcs s w' vs hv).mono
        (by rintro a s' w'' ⟨h1, h2, h3, h4⟩; exact ⟨h1, h2, by omega, h4⟩)
        (by rintro a s' w'' ⟨h1, h2, h3⟩; exact ⟨h1, by omega, h3⟩)
    have hsp : ∀ (e : Exc) (s' : Vec V) (w' : World), s' = s → w'.next = w.next →
        ExcFrom E t (∃ src ∈ srcs, src.copies) False e →
        Runs (E.spoil s.size (s.size + srcs.length)) s' w'
          (fun _ x'' w'' => (x'' = s ∨ n < s.size ∧ s.size + srcs.length ≤ s.cap ∧ s.Same x'' ∧ s.size ≤ x''.size ∧ x''.size ≤ s.size + srcs.length) ∧
            w.next ≤ w''.next ∧ ExcFrom E t (∃ src ∈ srcs, src.copies) (E.maxSize t < s.size + srcs.length) e)
          (fun e s' w' => (s' = s ∨ n < s.size ∧ s.size + srcs.length ≤ s.cap ∧ s.Same s' ∧ s.size ≤ s'.size ∧ s'.size ≤ s.size + srcs.length) ∧
            w.next ≤ w'.next ∧ ExcFrom E t (∃ src ∈ srcs, src.copies) (E.maxSize t < s.size + srcs.length) e) := by
      rintro e s' w' rfl hw' he
      apply spoil_runs _ _ _ _ _ (by omega)
      intro s'' h1 h2 h3
      exact ⟨Or.inr ⟨by omega, hc, h1, h2, h3⟩, by omega, he.mono id False.elim⟩
    have hfin : ∀ (w' : World), w'.next = w.next → Runs (mapAll (E.construct t) srcs) s w'
        (fun b x' w' => s.elems.take n ++ b ++ s.elems.drop n = s.elems.take n ++ vs ++ s.elems.drop n ∧
          Vec.WF (⟨s.blk, s.cap, s.elems.take n ++ b ++ s.elems.drop n⟩ : Vec V) w' ∧
          w.next ≤ w'.next ∧ (s.size + srcs.length ≤ s.cap → Vec.Same s ⟨s.blk, s.cap, s.elems.take n ++ b ++ s.elems.drop n⟩) ∧
          (¬ s.size + srcs.length ≤ s.cap → w.next ≤ s.blk ∧ s.size + srcs.length ≤ E.maxSize t) ∧
          ((∃ src ∈ srcs, src.copies) → (E.traits t).copyable = true))
        (fun e s' w' => Runs (E.spoil s.size (s.size + srcs.length)) s' w'
          (fun _ x'' w'' => (x'' = s ∨ n < s.size ∧ s.size + srcs.length ≤ s.cap ∧ s.Same x'' ∧ s.size ≤ x''.size ∧ x''.size ≤ s.size + srcs.length) ∧
            w.next ≤ w''.next ∧ ExcFrom E t (∃ src ∈ srcs, src.copies) (E.maxSize t < s.size + srcs.length) e)
          (fun e s' w' => (s' = s ∨ n < s.size ∧ s.size + srcs.length ≤ s.cap ∧ s.Same s' ∧ s.size ≤ s'.size ∧ s'.size ≤ s.size + srcs.length) ∧
            w.next ≤ w'.next ∧ ExcFrom E t (∃ src ∈ srcs, src.copies) (E.maxSize t < s.size + srcs.length) e)) := by
      intro w' hw'
      refine (hq w' hw').mono ?_ ?_
      · rintro a s' w'' ⟨rfl, rfl, h1, h2⟩
        have := hsz s'.blk s'.cap
        exact ⟨rfl, ⟨by simp; omega, by rw [this]; exact hc, h.nul⟩, by omega, fun _ => ⟨rfl, rfl⟩, fun h => absurd hc h, h2⟩
      · rintro e s' w'' ⟨h1, h2, h3⟩
        exact hsp e s' w'' h1 h2 h3
    simp only [runs_userOp]
    refine ⟨fun _ => hfin w rfl, fun hb => ⟨fun hf => ?_, fun hf => hfin ⟨w.next, w.tick + 1⟩ rfl⟩⟩
    exact hsp .user s ⟨w.next, w.tick + 1⟩ rfl rfl (by simp [ExcFrom]; exact ⟨_, hf⟩)
  · exact ⟨Or.inl (by trivial), by omega, by simp [ExcFrom, hm]⟩
  · exact ⟨Or.inl (by trivial), by omega, by simp [ExcFrom]; exact ⟨_, hf⟩⟩
  · refine (E.mapAll_construct_runs t srcs s _ vs hv).mono ?_ ?_
    · rintro a s' w' ⟨rfl, rfl, hw, hcp⟩
      refine (E.relocate_runs t _ _ _).mono ?_ ?_
      · rintro _ s'' w'' ⟨rfl, hw'⟩
        have h3 := E.lib.growCap_ge (E.maxSize t) s''.size (s''.size + srcs.length)
        have := hsz w.next (E.lib.growCap (E.maxSize t) s''.size (s''.size + srcs.length))
        simp only at hw
        refine ⟨rfl, ⟨by simp; omega, by rw [this]; exact h3, by simp; omega⟩, by omega, fun h => absurd h hc, fun _ => ⟨by simp, by omega⟩, hcp⟩
      · rintro e s'' w'' ⟨rfl, hw', he⟩
        simp only at hw
        exact ⟨Or.inl rfl, by omega, he.mono False.elim False.elim⟩
    · rintro e s' w' ⟨rfl, hw, he⟩
      simp only at hw
      exact ⟨Or.inl rfl, by omega, he.mono id False.elim⟩

theorem emplaceEach_runs (t : Ty) (srcs : List (Src V)) (s : Vec V) (w : World)
    (h : s.WF w) (vs : List V) (hext : ∀ src ∈ srcs, src.ext = true) (hv : srcs.map (Src.val s) = vs.map some) :
    Runs (each (E.emplaceBack t) srcs) s w
      (fun _ s' w' => s'.elems = s.elems ++ vs ∧ s'.WF w' ∧ w.next ≤ w'.next ∧
        (s.size + srcs.length ≤ s.cap → Vec.Same s s') ∧
        (¬ s.size + srcs.length ≤ s.cap → w.next ≤ s'.blk) ∧
        ((∃ src ∈ srcs, src.copies) → (E.traits t).copyable = true))
      (fun e s' w' => s'.WF w' ∧ (∃ j, j < vs.length ∧ s'.elems = s.elems ++ vs.take j) ∧ w.next ≤ w'.next ∧
        (s'.blk = s.blk ∨ w.next ≤ s'.blk) ∧ ExcFrom E t (∃ src ∈ srcs, src.copies) (E.maxSize t < s.size + srcs.length) e) := by
  induction srcs generalizing s w vs with
  | nil =>
    cases vs with
    | nil => simp [h, Vec.Same]; intro; exact absurd h.le (by omega)
    | cons => simp at hv
  | cons a srcs ih =>
    cases vs with
    | nil => simp at hv
    | cons v vs =>
      simp only [List.map_cons, List.cons.injEq] at hv
      rw [runs_each_cons]
      refine (E.emplaceBack_runs t a s w h v hv.1).mono ?_ ?_
      · rintro _ s1 w1 ⟨a1, a2, a3, a4, a5, a6⟩
        have hz : s1.size = s.size + 1 := by simp [Vec.size, a1]
        have hv1 : srcs.map (Src.val s1) = vs.map some := by
          rw [← hv.2]
          refine List.map_congr_left fun b hb => ?_
          have := hext b (by simp [hb])
          cases b <;> simp_all [Src.ext, Src.val]
        refine (ih s1 w1 a2 vs (fun b hb => hext b (by simp [hb])) hv1).mono ?_ ?_
        · rintro _ s2 w2 ⟨b1, b2, b3, b4, b5, b6⟩
          refine ⟨by rw [b1, a1]; simp, b2, by omega, fun hc => ?_, fun hc => ?_, ?_⟩
          · simp only [List.length_cons] at hc
            have e1 := a4 (by omega)
            have e2 := b4 (by rw [hz, e1.2]; omega)
            exact ⟨e2.1.trans e1.1, e2.2.trans e1.2⟩
          · simp only [List.length_cons] at hc ⊢
            by_cases hc2 : s1.size + srcs.length ≤ s1.cap
            · have e2 := b4 hc2
              have hlt : ¬ s.size < s.cap := fun hlt => by
                have := (a4 hlt).2
                omega
              rw [e2.1]
              exact (a5 hlt).1
            · have := b5 hc2
              omega
          · rintro ⟨c, hc, hcc⟩
            rcases List.mem_cons.1 hc with rfl | hc
            · exact a6 hcc
            · exact b6 ⟨c, hc, hcc⟩
        · rintro e s2 w2 ⟨b1, ⟨j, hj, b2⟩, b3, b4, b5⟩
          refine ⟨b1, ⟨j + 1, by simp; omega, by rw [b2, a1]; simp⟩, by omega, ?_, b5.mono ?_ ?_⟩
          · rcases b4 with b4 | b4
            · rw [b4]
              by_cases hlt : s.size < s.cap
              · exact Or.inl (a4 hlt).1
              · exact Or.inr (a5 hlt).1
            · exact Or.inr (by omega)
          · rintro ⟨c, hc, hcc⟩; exact ⟨c, by simp [hc], hcc⟩
          · intro hm; simp only [List.length_cons]; omega
      · rintro e s1 w1 ⟨rfl, a2, a3⟩
        refine ⟨h.weaken a2, ⟨0, by simp, by simp⟩, a2, Or.inl rfl, a3.mono (fun hc => ⟨a, by simp, hc⟩) ?_⟩
        intro hm; simp only [List.length_cons]; omega

theorem insertInput_runs (t : Ty) (n : Nat) (srcs : List (Src V)) (s : Vec V) (w : World)
    (h : s.WF w) (vs : List V) (hn : n ≤ s.size) (hext : ∀ src ∈ srcs, src.ext = true) (hv : srcs.map (Src.val s) = vs.map some) :
    Runs (E.insertInput t n srcs) s w
      (fun _ s' w' => s'.elems = s.elems.take n ++ vs ++ s.elems.drop n ∧ s'.WF w' ∧ w.next ≤ w'.next ∧
        (s.size + srcs.length ≤ s.cap → Vec.Same s s') ∧
        (¬ s.size + srcs.length ≤ s.cap → w.next ≤ s'.blk) ∧
        ((∃ src ∈ srcs, src.copies) → (E.traits t).copyable = true))
      (fun e s' w' => s'.WF w' ∧ s.size ≤ s'.size ∧ w.next ≤ w'.next ∧
        (s'.blk = s.blk ∨ w.next ≤ s'.blk) ∧ ExcFrom E t (∃ src ∈ srcs, src.copies) (E.maxSize t < s.size + srcs.length) e) := by
  unfold insertInput
  simp only [runs_bind, runs_get, runs_ite, runs_undef]
  refine ⟨fun h0 => by omega, fun _ => ⟨fun ht => ?_, fun _ => ?_⟩⟩
  · have hlt := h.lt
    have hlen : srcs.length = vs.length := by
      have := congrArg List.length hv; simpa using this
    have hv0 : srcs.map (Src.val (Vec.nil : Vec V)) = vs.map some := by
      rw [← hv]
      refine List.map_congr_left fun b hb => ?_
      have := hext b hb
      cases b <;> simp_all [Src.ext, Src.val]
    have hvm : (vs.map Src.moveExt).map (Src.val s) = vs.map some := by
      simp [Src.val]
    have hnil : (Vec.nil : Vec V).WF w := ⟨by simp only [Vec.nil]; omega, by simp [Vec.nil, Vec.size], by simp [Vec.nil]⟩
    rw [runs_locally]
    refine (E.emplaceEach_runs t srcs Vec.nil w hnil vs hext hv0).mono ?_ ?_
    · rintro _ s1 w1 ⟨a1, a2, a3, a4, a5, a6⟩
      have a1 : s1.elems = vs := a1
      rw [a1]
      refine (E.insertRange_runs t n (vs.map .moveExt) s w1 (h.weaken a3) vs hn hvm).mono ?_ ?_
      · rintro _ s2 w2 ⟨b1, b2, b3, b4, b5, -⟩
        rw [List.length_map, ← hlen] at b4 b5
        exact ⟨b1, b2, by omega, b4, fun hc => by have := (b5 hc).1; omega, a6⟩
      · rintro e s2 w2 ⟨b1, b2, b3⟩
        rw [List.length_map, ← hlen] at b1 b3
        refine ⟨?_, ?_, by omega, ?_, b3.mono ?_ id⟩
        · rcases b1 with rfl | ⟨-, c1, c2, c3, c4⟩
          · exact h.weaken (by omega)
          · exact ⟨by rw [c2.1]; omega, by rw [c2.2]; omega, by rw [c2.1, c2.2]; exact h.nul⟩
        · rcases b1 with rfl | ⟨-, c1, c2, c3, c4⟩
          · exact Nat.le_refl _
          · exact c3
        · rcases b1 with rfl | ⟨-, c1, c2, c3, c4⟩
          · exact .inl rfl
          · exact .inl c2.1
        · rintro ⟨c, hc, hcc⟩
          obtain ⟨v, -, rfl⟩ := List.mem_map.1 hc
          simp [Src.copies] at hcc
    · rintro e s1 w1 ⟨a1, ⟨j, hj, a2⟩, a3, a4, a5⟩
      exact ⟨h.weaken a3, Nat.le_refl _, a3, .inl rfl, a5.mono id (by intro h; simp only [Vec.nil, Vec.size, List.length_nil] at h; omega)⟩
  refine (E.emplaceEach_runs t srcs s w h vs hext hv).mono ?_ ?_
  · rintro _ s1 w1 ⟨a1, a2, a3, a4, a5, a6⟩
    simp only [shift, runs_onExc, runs_userOp, runs_set]
    have hz : s1.size = s.size + vs.length := by simp [Vec.size, a1]
    have hfin : ∀ w2 : World, w2.next = w1.next →
        ((s.elems.take n ++ s1.elems.drop s.size ++ s.elems.drop n = s.elems.take n ++ vs ++ s.elems.drop n) ∧
        Vec.WF (⟨s1.blk, s1.cap, s.elems.take n ++ s1.elems.drop s.size ++ s.elems.drop n⟩ : Vec V) w2 ∧ w.next ≤ w2.next ∧
        (s.size + srcs.length ≤ s.cap → Vec.Same s (⟨s1.blk, s1.cap, s.elems.take n ++ s1.elems.drop s.size ++ s.elems.drop n⟩ : Vec V)) ∧
        (¬ s.size + srcs.length ≤ s.cap → w.next ≤ s1.blk) ∧
        ((∃ src ∈ srcs, src.copies) → (E.traits t).copyable = true)) := by
      intro w2 hw2
      have hd : s1.elems.drop s.size = vs := by rw [a1]; simp [Vec.size]
      have hlt := a2.lt
      have hle := a2.le
      refine ⟨by rw [hd], ⟨by simp only; omega, ?_, a2.nul⟩, by omega, fun hc => ⟨(a4 hc).1, (a4 hc).2⟩, a5, a6⟩
      rw [hd]
      simp only [Vec.size, List.length_append, List.length_take, List.length_drop] at *
      omega
    refine ⟨fun _ => hfin w1 rfl, fun hb => ⟨fun hf => ?_, fun hf => hfin ⟨w1.next, w1.tick + 1⟩ rfl⟩⟩
    apply spoil_runs _ _ _ _ _ (Nat.le_refl _)
    intro s2 b1 b2 b3
    have hlt := a2.lt
    have hle := a2.le
    refine ⟨⟨by rw [b1.1]; exact hlt, by rw [b1.2]; omega, by rw [b1.1, b1.2]; exact a2.nul⟩, by omega, a3, ?_, by simp [ExcFrom]; exact ⟨_, hf⟩⟩
    · rw [b1.1]
      by_cases hc : s.size + srcs.length ≤ s.cap
      · exact Or.inl (a4 hc).1
      · exact Or.inr (a5 hc)
  · rintro e s1 w1 ⟨a1, ⟨j, hj, a2⟩, a3, a4, a5⟩
    exact ⟨a1, by simp [Vec.size, a2], a3, a4, a5⟩

theorem eraseRange_runs (t : Ty) (a b : Nat) (s : Vec V) (w : World) (hab : a ≤ b) (hb : b ≤ s.size) :
    Runs (E.eraseRange t a b) s w
      (fun _ s' w' => s'.elems = s.elems.take a ++ s.elems.drop b ∧ Vec.Same s s' ∧ w'.next = w.next)
      (fun e s' w' => (E.traits t).nothrowAssign = false ∧ a < b ∧ b < s.size ∧ e = .user ∧
        (∃ n, E.fault n = true) ∧ Vec.Same s s' ∧ s'.size = s.size ∧ w'.next = w.next) := by
  unfold eraseRange
  simp only [runs_bind, runs_get, runs_ite, runs_undef, shift, runs_onExc, runs_userOp, runs_set]
  refine ⟨fun _ => ⟨fun h => ⟨by trivial, ⟨rfl, rfl⟩, by trivial⟩, fun h => ⟨fun hf => ?_, fun hf => ⟨by trivial, ⟨rfl, rfl⟩, by trivial⟩⟩⟩, fun h => h ⟨hab, hb⟩⟩
  apply spoil_runs _ _ _ _ _ (by omega)
  intro s'' h1 h2 h3
  simp at h
  refine ⟨h.1.1, by omega, by omega, by trivial, ⟨_, hf⟩, h1, by omega, by trivial⟩

theorem eraseAt_runs (t : Ty) (n : Nat) (s : Vec V) (w : World) (hn : n < s.size) :
    Runs (E.eraseAt t n) s w
      (fun _ s' w' => s'.elems = s.elems.eraseIdx n ∧ Vec.Same s s' ∧ w'.next = w.next)
      (fun e s' w' => (E.traits t).nothrowAssign = false ∧ n + 1 < s.size ∧ e = .user ∧
        (∃ n, E.fault n = true) ∧ Vec.Same s s' ∧ s'.size = s.size ∧ w'.next = w.next) := by
  unfold eraseAt
  simp only [runs_bind, runs_get, runs_ite, runs_undef]
  refine ⟨fun _ => ?_, fun h => absurd hn h⟩
  refine (E.eraseRange_runs t n (n + 1) s w (by omega) hn).mono ?_ ?_
  · rintro _ s' w' ⟨h1, h2, h3⟩
    exact ⟨by rw [h1, List.eraseIdx_eq_take_drop_succ], h2, h3⟩
  · rintro e s' w' ⟨h1, h2, h3, h4⟩
    exact ⟨h1, h3, h4⟩

theorem shrinkToFit_runs (t : Ty) (s : Vec V) (w : World) (h : s.WF w) :
    Runs (E.shrinkToFit t) s w
      (fun _ s' w' => s'.elems = s.elems ∧ s'.WF w' ∧ w.next ≤ w'.next ∧ s'.cap ≤ s.cap ∧
        Vec.Moved w s s' ∧ s'.cap = E.lib.shrinkCap s.size s.cap)
      (fun e s' w' => s' = s ∧ w.next ≤ w'.next ∧ ExcFrom E t False False e) := by
  unfold shrinkToFit
  have hlt := h.lt
  have hle := h.le
  have h1 := E.lib.shrinkCap_ge s.size s.cap hle
  have h2 := E.lib.shrinkCap_le s.size s.cap hle
  simp only [runs_bind, runs_get, runs_ite, runs_pure, runs_alloc, runs_set]
  refine ⟨fun hc => ⟨by trivial, h, by omega, by omega, Or.inl ⟨rfl, rfl⟩, hc.symm⟩, fun hc => ⟨fun h0 => ?_, fun h0 => ⟨fun hf => ?_, fun hf => ?_⟩⟩⟩
  · refine ⟨by trivial, ⟨by simp; omega, ?_, by simp⟩, by omega, by omega, Or.inr (Or.inl ⟨rfl, rfl⟩), h0.symm⟩
    simp only [Vec.size] at *; omega
  · exact ⟨by trivial, by omega, by simp [ExcFrom]; exact ⟨_, hf⟩⟩
  · refine (E.relocate_runs t _ _ _).mono ?_ ?_
    · rintro _ s'' w'' ⟨rfl, hw'⟩
      simp only at hw'
      refine ⟨by trivial, ⟨by simp; omega, by simp only [Vec.size] at *; omega, by simp; omega⟩, by omega, h2, Or.inr (Or.inr (by simp)), by trivial⟩
    · rintro e s'' w'' ⟨rfl, hw', he⟩
      exact ⟨by trivial, by simp at hw'; omega, he⟩

theorem copyVec_runs (t : Ty) (s : Vec V) (x : X) (w : World) (hw : 0 < w.next) :
    Runs (E.copyVec t s) x w
      (fun a x' w' => x' = x ∧ a.elems = s.elems ∧ a.WF w' ∧ w.next ≤ w'.next ∧
        (a.blk = 0 ∨ w.next ≤ a.blk) ∧ a.cap = s.size ∧ (s.elems ≠ [] → (E.traits t).copyable = true))
      (fun e x' w' => x' = x ∧ w.next ≤ w'.next ∧ s.elems ≠ [] ∧ ExcFrom E t True False e) := by
  unfold copyVec
  simp only [runs_ite, runs_pure, runs_bind, runs_alloc]
  refine ⟨fun h => ?_, fun h => ⟨fun hf => ?_, fun hf => ?_⟩⟩
  · simp [Vec.nil_WF hw, h]; simp [Vec.nil, Vec.size, h]
  · exact ⟨by trivial, by omega, h, by simp [ExcFrom]; exact ⟨_, hf⟩⟩
  · refine (each_runs _ s.elems x _ (ExcFrom E t True False) ((E.traits t).copyable = true) (fun b _ w => E.copyVH_runs t x w)).mono ?_ ?_
    · rintro _ x' w' ⟨rfl, hw', hc⟩
      simp only at hw'
      exact ⟨by trivial, by trivial, ⟨by simp; omega, by simp [Vec.size], ⟨fun h' => by simp at h'; omega, fun h' => absurd (List.length_eq_zero_iff.1 h') h⟩⟩, by omega, Or.inr (by simp), by trivial, hc⟩
    · rintro e x' w' ⟨rfl, hw', he⟩
      simp only at hw'
      exact ⟨by trivial, by omega, h, he⟩

theorem moveVec_runs (t : Ty) (same : Bool) (s : Vec V) (w : World) (h : s.WF w) :
    Runs (E.moveVec t same) s w
      (fun a s' w' => a.elems = s.elems ∧ s'.elems = [] ∧ a.WF w' ∧ s'.WF w' ∧ w.next ≤ w'.next ∧
        (same = true → a = s ∧ s' = Vec.nil) ∧
        (same = false → (a.blk = 0 ∨ w.next ≤ a.blk) ∧ s'.blk = s.blk ∧ a.cap = s.size))
      (fun e s' w' => Vec.Same s s' ∧ s'.size = s.size ∧ w.next ≤ w'.next ∧ same = false ∧
        s.elems ≠ [] ∧ (∃ n, E.fault n = true) ∧
        (e = .badAlloc ∨ (e = .user ∧ (E.traits t).nothrowMove = false))) := by
  unfold moveVec
  have hlt := h.lt
  have hle := h.le
  simp only [runs_ite, runs_pure, runs_bind, runs_alloc, runs_get, runs_set, runs_onExc]
  refine ⟨fun hs => ⟨by trivial, by trivial, h, Vec.nil_WF (by omega), by omega, fun _ => ⟨by trivial, by trivial⟩, fun h' => by simp_all⟩, fun hs => ⟨fun h0 => ?_, fun h0 => ⟨fun hf => ?_, fun hf => ?_⟩⟩⟩
  · exact ⟨by rw [h0]; rfl, h0, Vec.nil_WF (by omega), h, by omega, fun h => absurd h hs, fun _ => ⟨Or.inl rfl, by trivial, by simp [Vec.size, h0, Vec.nil]⟩⟩
  · exact ⟨⟨rfl, rfl⟩, by trivial, by omega, by simpa using hs, h0, ⟨_, hf⟩, Or.inl (by trivial)⟩
  · refine (each_runs _ s.elems s _ (fun e => e = .user ∧ (∃ n, E.fault n = true) ∧ (E.traits t).nothrowMove = false) True (fun b _ w => ?_)).mono ?_ ?_
    · exact (E.moveVH_runs t s w).mono (by rintro _ _ _ ⟨h1, h2⟩; exact ⟨h1, h2, trivial⟩) (by rintro _ _ _ h; exact h)
    · rintro _ x' w' ⟨rfl, hw', hc⟩
      simp only at hw'
      exact ⟨by trivial, by trivial, ⟨by simp; omega, by simp [Vec.size], ⟨fun h' => by simp at h'; omega, fun h' => absurd (List.length_eq_zero_iff.1 h') h0⟩⟩, ⟨by simp; omega, by simp [Vec.size], h.nul⟩, by omega, fun h => absurd h hs, fun _ => ⟨Or.inr (by simp), by trivial, by trivial⟩⟩
    · rintro e x' w' ⟨rfl, hw', he⟩
      simp only at hw'
      apply spoil_runs _ _ _ _ _ (by omega)
      intro s'' h1 h2 h3
      exact ⟨h1, by omega, by omega, by simpa using hs, h0, he.2.1, Or.inr ⟨he.1, he.2.2⟩⟩

/-- No room for `n` elements of type `t`: they exceed the maximum size of the vector (or the
standard library's index vectors cannot hold as many elements as element vectors). -/
def TooMany (t : Ty) (n : Nat) : Prop := E.maxSize t < n ∨ E.idxMaxSize ≤ E.maxSize t

theorem TooMany.mono {t : Ty} {n m : Nat} (h : TooMany E t n) (hm : n ≤ m) : TooMany E t m := by
  unfold TooMany at *; omega

/-! ### Index vectors -/

/-- Exceptions of index operations. -/
def IdxExc (len : Prop) (e : Exc) : Prop :=
  (e = .badAlloc ∧ ∃ n, E.fault n = true) ∨ (e = .lengthError ∧ len)

theorem IdxExc.mono {E : Env V} {l l' : Prop} {e : Exc} (h : IdxExc E l e) (hl : l → l') : IdxExc E l' e := by
  unfold IdxExc at *; grind

theorem idxReserve_runs (n : Nat) (s : Vec Ptr) (w : World) (h : s.WF w) :
    Runs (E.idxReserve n) s w
      (fun _ s' w' => s'.elems = s.elems ∧ s'.WF w' ∧ w.next ≤ w'.next ∧ n ≤ s'.cap ∧ s.cap ≤ s'.cap ∧
        (n ≤ s.cap → s' = s) ∧ (s.cap < n → w.next ≤ s'.blk))
      (fun e s' w' => s' = s ∧ w.next ≤ w'.next ∧ IdxExc E (E.idxMaxSize < n) e) := by
  unfold idxReserve
  have := E.lib.reserveCap_ge n
  have hlt := h.lt
  have hle := h.le
  simp only [runs_bind, runs_get, runs_ite, runs_alloc, runs_raise, runs_pure, runs_set]
  refine ⟨fun h1 => by grind [IdxExc], fun h1 => ⟨fun h2 => by grind, fun h2 => ⟨fun hf => by grind [IdxExc], fun hf => ?_⟩⟩⟩
  refine ⟨by trivial, ⟨by simp, by simp only [Vec.size] at *; omega, by simp; omega⟩, by omega, this, by omega, fun h => absurd h h2, fun _ => by omega⟩

theorem idxPushBack_runs (p : Ptr) (s : Vec Ptr) (w : World) (h : s.WF w) :
    Runs (E.idxPushBack p) s w
      (fun _ s' w' => s'.elems = s.elems ++ [p] ∧ s'.WF w' ∧ w.next ≤ w'.next ∧
        (s.size < s.cap → Vec.Same s s') ∧ (¬ s.size < s.cap → w.next ≤ s'.blk))
      (fun e s' w' => s' = s ∧ w.next ≤ w'.next ∧ ¬ s.size < s.cap ∧ IdxExc E (E.idxMaxSize ≤ s.size) e) := by
  unfold idxPushBack
  have := E.lib.growCap_ge E.idxMaxSize s.size (s.size + 1)
  have hlt := h.lt
  have hle := h.le
  simp only [runs_bind, runs_get, runs_ite, runs_alloc, runs_raise, runs_set]
  refine ⟨fun h1 => ?_, fun h1 => ⟨fun h2 => by grind [IdxExc], fun h2 => ⟨fun hf => by grind [IdxExc], fun hf => ?_⟩⟩⟩
  · refine ⟨by trivial, ⟨by simp; omega, ?_, h.nul⟩, by omega, fun _ => ⟨rfl, rfl⟩, fun h => absurd h1 h⟩
    simp only [Vec.size, List.length_append, List.length_singleton] at *; omega
  · refine ⟨by trivial, ⟨by simp, ?_, by simp; omega⟩, by omega, fun h => absurd h h1, fun _ => by omega⟩
    simp only [Vec.size, List.length_append, List.length_singleton] at *; omega

end Env
end PolyColl
