import Verif.Props.Reading
import Verif.Props.Capacity
/-!
# C69: what a collection answers

`Asks` is what the documentation requires of an operation on a const collection or its iterators, `Answers` what the
result has to be, both in terms of the types and the sequences of elements of the collection (`c.abs`) and of the
positions iterators stand for (`At`, `LAt`).
-/

namespace PolyColl.Props
open PolyColl Prog Coll

variable {V : Type} {E : Env V} {k : Kind}

/-- Requirements. -/
def Asks (E : Env V) (k : Kind) (w : World) (c : Coll V) : {α : Type} → ReadOp V α → Prop
  | _, .next it | _, .deref it => ∃ t n, c.At E it (some (t, n))
  | _, .derefAt o l => ∃ t n, LAt E c o l t n ∧ n < (c.abs.elemsOf t).length
  | _, .toLocal l => ∃ t n, LAt E c .base l t n
  | _, .toBase l => ∃ t n, LAt E c .terminal l t n
  | _, .advance o l d => ∃ (t : Ty) (i j : Nat), LAt E c o l t i ∧ j ≤ (c.abs.elemsOf t).length ∧ (i : Int) + d = j
  | _, .difference o a b | _, .less o a b => ∃ t i j, LAt E c o a t i ∧ LAt E c o b t j
  | _, .equal d | _, .notEqual d => d.Reachable E k w
  | _, _ => True

/-- The two collections have the same elements: for each type, as many, and pairwise equal. -/
def Alike (E : Env V) (c d : Coll V) : Prop := ∀ t, All2 (fun x y => E.eqv x y = true) (c.abs.elemsOf t) (d.abs.elemsOf t)

/-- Results. -/
def Answers (E : Env V) (k : Kind) (c : Coll V) : {α : Type} → ReadOp V α → α → Prop
  | _, .isRegistered t, b => b = true ↔ E.tiTy t ∈ c.abs.types
  | _, .empty, b => b = true ↔ c.abs.flat = []
  | _, .size, n => n = c.abs.flat.length
  | _, .emptyOf t, b => E.tiTy t ∈ c.abs.types ∧ (b = true ↔ c.abs.elemsOf (E.tiTy t) = [])
  | _, .sizeOf t, n => E.tiTy t ∈ c.abs.types ∧ n = (c.abs.elemsOf (E.tiTy t)).length
  | _, .maxSizeOf t, n => E.tiTy t ∈ c.abs.types ∧ n = E.maxSize (E.tiTy t) - (if k = .packed then 0 else 1)
  | _, .capacityOf t, n => CapacityIs c (E.tiTy t) n
  | _, .allocator, a => a = c.map.al
  | _, .begin, it => c.At E it c.abs.first
  | _, .end, it => c.At E it none
  | _, .beginOf t, l => E.tiTy t ∈ c.abs.types ∧ LAt E c .base l (E.tiTy t) 0
  | _, .endOf t, l => E.tiTy t ∈ c.abs.types ∧ LAt E c .base l (E.tiTy t) (c.abs.elemsOf (E.tiTy t)).length
  | _, .segments, l => (l.map fun i => E.tiTy i.info) = c.abs.types ∧
      ∀ i ∈ l, LAt E c .base i.first (E.tiTy i.info) 0 ∧ LAt E c .base i.last (E.tiTy i.info) (c.abs.elemsOf (E.tiTy i.info)).length
  | _, .next it, it' => ∀ t n, c.At E it (some (t, n)) → c.At E it' (c.abs.norm t (n + 1))
  | _, .deref it, v => ∀ t n, c.At E it (some (t, n)) → (c.abs.elemsOf t)[n]? = some v
  | _, .derefAt o l, v => ∀ t n, LAt E c o l t n → (c.abs.elemsOf t)[n]? = some v
  | _, .toLocal l, l' => ∀ t n, LAt E c .base l t n → LAt E c .terminal l' t n
  | _, .toBase l, l' => ∀ t n, LAt E c .terminal l t n → LAt E c .base l' t n
  | _, .advance o l d, l' => ∀ (t : Ty) (i j : Nat), LAt E c o l t i → (i : Int) + d = j → LAt E c o l' t j
  | _, .difference o a b, d => ∀ (t : Ty) (i j : Nat), LAt E c o a t i → LAt E c o b t j → (i : Int) + d = j
  | _, .less o a b, r => ∀ t i j, LAt E c o a t i → LAt E c o b t j → (r = true ↔ i < j)
  | _, .equal d, r => r = true ↔ Alike E c d
  | _, .notEqual d, r => r = true ↔ ¬ Alike E c d

/-- Exceptions. -/
def Refuses (E : Env V) (c : Coll V) : {α : Type} → ReadOp V α → Exc → Prop
  | _, .emptyOf t, e | _, .sizeOf t, e | _, .maxSizeOf t, e | _, .capacityOf t, e | _, .beginOf t, e | _, .endOf t, e =>
    e = .unregistered (E.tiTy t) ∧ E.tiTy t ∉ c.abs.types
  | _, .equal d, e | _, .notEqual d, e => ∃ t, (e = .notEqualityComparable t ∧ (E.traits t).eqComparable = false ∨
      e = .user ∧ (E.traits t).eqComparable = true ∧ (E.traits t).nothrowEq = false) ∧
    (c.abs.elemsOf t).length = (d.abs.elemsOf t).length ∧ c.abs.elemsOf t ≠ []
  | _, _, _ => False

theorem eqExc {t : Ty} {e : Exc} {w w' : World} (h : E.EqExc t e w w') :
    e = .notEqualityComparable t ∧ (E.traits t).eqComparable = false ∨ e = .user ∧ (E.traits t).eqComparable = true ∧ (E.traits t).nothrowEq = false := by
  rcases h with ⟨-, h1, h2, h3, -⟩ | h
  · exact Or.inr ⟨h1, h2, h3⟩
  · exact Or.inl h

theorem LAt.eq {c : Coll V} {w : World} (h : c.Reachable E k w) {o : Sort'} {l : LIter} {t u : Ty} {i j : Nat} (h1 : LAt E c o l t i)
    (h2 : LAt E c o l u j) : t = u ∧ i = j := by
  obtain ⟨x, hx, ht, -, -, hp⟩ := h1.node h
  obtain ⟨y, hy, hu, -, -, hq⟩ := h2.node h
  have : x = y := Option.some.inj ((hx.node? E h.map.ids).symm.trans (hy.node? E h.map.ids))
  subst this
  rw [hp] at hq
  exact ⟨ht.symm.trans hu, congrArg Ptr.off hq⟩

theorem at_unique {c : Coll V} {w : World} (h : c.Reachable E k w) {it : GIter} {t u : Ty} {i j : Nat} (h1 : c.At E it (some (t, i)))
    (h2 : c.At E it (some (u, j))) : t = u ∧ i = j := by
  have := (at_eq E (h.inv.core E) h1 h2).1 rfl
  simpa using this

/-- **C69.**  Every operation on a const collection and on its iterators, used as documented, leaves everything as it is
and gives the right answer; it throws only `unregistered_type`, for a type that is not registered, and
`not_equality_comparable`, if elements of such a type would have to be compared. -/
theorem C69_answers {c : Coll V} {w : World} (h : c.Reachable E k w) {α : Type} (r : ReadOp V α) (hr : Asks E k w c r) :
    Runs (r.run E) c w (fun a c' w' => c' = c ∧ w'.next = w.next ∧ Answers E k c r a)
      (fun e c' w' => c' = c ∧ w'.next = w.next ∧ Refuses E c r e) := by
  have hq : ∀ {β : Type} (f : Seg V → β) (t : TI), Runs (query E f t) c w (fun a c' w' => c' = c ∧ w'.next = w.next ∧
      ∃ n ∈ c.map.nodes, n.seg.ty = E.tiTy t ∧ a = f n.seg ∧ n.seg.elems = c.abs.elemsOf (E.tiTy t))
      (fun e c' w' => c' = c ∧ w'.next = w.next ∧ e = .unregistered (E.tiTy t) ∧ E.tiTy t ∉ c.abs.types) := fun f t =>
    (query_runs E f t c w h.map).mono (fun _ _ _ ⟨h1, h2, n, hn, ht, ha⟩ => ⟨h1, h2 ▸ rfl, n, hn, ht, ha, ht ▸ (Ens.refl E h.map hn).elems E h.map⟩)
      fun e c' w' hx => ⟨hx.1, hx.2.1 ▸ rfl, hx.2.2⟩
  have core := h.inv.core E
  cases r
  case isRegistered t => exact ⟨rfl, rfl, isRegistered_iff E h.map t⟩
  case empty => exact ⟨rfl, rfl, by show c.empty = true ↔ _; rw [empty_abs]; simp⟩
  case size => exact ⟨rfl, rfl, size_abs c⟩
  case emptyOf t =>
    refine (hq _ t).mono ?_ fun _ _ _ h => h
    rintro _ _ _ ⟨h1, h2, n, hn, ht, rfl, he⟩
    exact ⟨h1, h2, ht ▸ mem_types hn, by rw [← he]; exact List.isEmpty_iff⟩
  case sizeOf t =>
    refine (hq _ t).mono ?_ fun _ _ _ h => h
    rintro _ _ _ ⟨h1, h2, n, hn, ht, rfl, he⟩
    exact ⟨h1, h2, ht ▸ mem_types hn, by rw [← he]; rfl⟩
  case maxSizeOf t =>
    refine (hq _ t).mono ?_ fun _ _ _ h => h
    rintro _ _ _ ⟨h1, h2, n, hn, ht, rfl, he⟩
    refine ⟨h1, h2, ht ▸ mem_types hn, ?_⟩
    have hk : n.seg.kind = k := (h.map.kind n hn).trans h.kind
    rw [← ht, ← hk]
    unfold Seg.maxSize Seg.kind Seg.ty Backend.kind Backend.ty
    cases n.seg.be <;> rfl
  case capacityOf t =>
    refine (hq _ t).mono ?_ fun _ _ _ h => h
    rintro _ _ _ ⟨h1, h2, n, hn, ht, rfl, he⟩
    exact ⟨h1, h2, ht ▸ mem_types hn, fun x hx hxt => by rw [seg_unique h.map hx hn (hxt.trans ht.symm)]⟩
  case allocator => exact ⟨rfl, rfl, rfl⟩
  case begin =>
    obtain ⟨it, h1, h2⟩ := begin_at E h.inv
    show Runs (Prog.ofOption (c.begin E)) c w _ _
    rw [h1]
    exact ⟨rfl, rfl, h2⟩
  case «end» => exact ⟨rfl, rfl, at_end E c⟩
  case beginOf t =>
    exact (beginInfo_runs E t c w h.map).mono (fun _ _ _ hx => ⟨hx.1, hx.2.1 ▸ rfl, hx.2.2.2, hx.2.2.1⟩) fun e c' w' hx => ⟨hx.1, hx.2.1 ▸ rfl, hx.2.2⟩
  case endOf t =>
    exact (endInfo_runs E t c w h.map).mono (fun _ _ _ hx => ⟨hx.1, hx.2.1 ▸ rfl, hx.2.2.2, hx.2.2.1⟩) fun e c' w' hx => ⟨hx.1, hx.2.1 ▸ rfl, hx.2.2⟩
  case segments =>
    obtain ⟨l, h1, h2, -, h3⟩ := C26_segment_traversal h
    show Runs (Prog.ofOption (c.segTraversal E)) c w _ _
    rw [h1]
    exact ⟨rfl, rfl, h2, fun i hi => ⟨(h3 i hi).1, (h3 i hi).2.1⟩⟩
  case next it =>
    obtain ⟨t, n, ha⟩ := hr
    obtain ⟨it', h1, h2⟩ := increment_at E h.inv ha
    show Runs (Prog.ofOption (c.map.increment E it)) c w _ _
    rw [h1]
    refine ⟨rfl, rfl, fun u m hb => ?_⟩
    obtain ⟨rfl, rfl⟩ := at_unique h ha hb
    exact h2
  case deref it =>
    obtain ⟨t, n, ha⟩ := hr
    obtain ⟨v, h1, h2⟩ := deref_at E core ha
    show Runs (Prog.ofOption (c.map.deref it.segpos)) c w _ _
    rw [h1]
    refine ⟨rfl, rfl, fun u m hb => ?_⟩
    obtain ⟨rfl, rfl⟩ := at_unique h ha hb
    unfold Spec.State.elemsOf
    simp only [Spec.State.at?] at h2
    cases hg : c.abs.get t with
    | none => rw [hg] at h2; cases h2
    | some l => rw [hg] at h2; exact h2
  case derefAt o l =>
    obtain ⟨t, n, ha, hn⟩ := hr
    show Runs (Prog.ofOption (c.derefAt o l)) c w _ _
    have h1 : c.derefAt o l = (c.abs.elemsOf t)[n]? := by
      cases o
      · exact deref_latB core ha hn
      · exact deref_latL core ha hn
    rw [h1, List.getElem?_eq_getElem hn]
    refine ⟨rfl, rfl, fun u m hb => ?_⟩
    obtain ⟨rfl, rfl⟩ := ha.eq h hb
    exact List.getElem?_eq_getElem hn
  case toLocal l =>
    obtain ⟨t, n, ha⟩ := hr
    obtain ⟨l', h1, h2⟩ := toLocal_at E core ha
    show Runs (Prog.ofOption (c.toLocal E l)) c w _ _
    rw [h1]
    refine ⟨rfl, rfl, fun u m hb => ?_⟩
    obtain ⟨rfl, rfl⟩ := ha.eq h hb
    exact h2
  case toBase l =>
    obtain ⟨t, n, ha⟩ := hr
    obtain ⟨l', h1, h2, -⟩ := toBase_at E core ha
    show Runs (Prog.ofOption (c.toBase E l)) c w _ _
    rw [h1]
    refine ⟨rfl, rfl, fun u m hb => ?_⟩
    obtain ⟨rfl, rfl⟩ := ha.eq h hb
    exact h2
  case advance o l d =>
    obtain ⟨t, i, j, ha, hj, hd⟩ := hr
    obtain ⟨l', h1, h2⟩ := C62_advance h ha hj
    show Runs (Prog.ofOption (c.advance o l d)) c w _ _
    rw [show d = (j : Int) - i by omega, h1]
    refine ⟨rfl, rfl, fun u i' j' hb hd' => ?_⟩
    obtain ⟨rfl, rfl⟩ := ha.eq h hb
    rw [show j' = j by omega]
    exact h2
  case difference o a b =>
    obtain ⟨t, i, j, ha, hb⟩ := hr
    show Runs (Prog.ofOption (c.difference o a b)) c w _ _
    rw [C62_difference h ha hb]
    refine ⟨rfl, rfl, fun u i' j' ha' hb' => ?_⟩
    obtain ⟨rfl, rfl⟩ := ha.eq h ha'
    obtain ⟨-, rfl⟩ := hb.eq h hb'
    omega
  case less o a b =>
    obtain ⟨t, i, j, ha, hb⟩ := hr
    show Runs (Prog.ofOption (c.less o a b)) c w _ _
    rw [C62_less h ha hb]
    refine ⟨rfl, rfl, fun u i' j' ha' hb' => ?_⟩
    obtain ⟨rfl, rfl⟩ := ha.eq h ha'
    obtain ⟨-, rfl⟩ := hb.eq h hb'
    exact decide_eq_true_iff
  case equal d =>
    have hd : d.Reachable E k w := hr
    refine (Coll.equal_runs E c d w h.map hd.map (h.kind.trans hd.kind.symm) c w).mono ?_ ?_
    · rintro b _ _ ⟨h1, h2, h3, -⟩
      exact ⟨h1, h2.1, h3⟩
    · rintro e _ _ ⟨h1, h2, t, h3, h5, h6⟩
      exact ⟨h1, h2.1, t, eqExc h3, h5, h6⟩
  case notEqual d =>
    have hd : d.Reachable E k w := hr
    refine (Coll.notEqual_runs E c d w h.map hd.map (h.kind.trans hd.kind.symm) c w).mono ?_ ?_
    · rintro b _ _ ⟨h1, h2, h3, -⟩
      refine ⟨h1, h2.1, ?_⟩
      show b = true ↔ ¬ Alike E c d
      unfold Alike
      rw [← h3]
      simp
    · rintro e _ _ ⟨h1, h2, t, h3, h5, h6⟩
      exact ⟨h1, h2.1, t, eqExc h3, h5, h6⟩

/-! ### Examples -/

open Sample in
/-- Iterators of the sample collections, with what is asked of them and the answers: the distance from the first to the
last of three elements is 2. -/
example : (c0 .packed).Reachable E0 .packed (w0 .packed) ∧
    ∃ (a b : LIter), LAt E0 (c0 .packed) .base a 0 0 ∧ LAt E0 (c0 .packed) .base b 0 2 ∧
      Asks E0 .packed (w0 .packed) (c0 .packed) (.difference .base a b) ∧ Asks E0 .packed (w0 .packed) (c0 .packed) (.less .base a b) ∧
      Asks E0 .packed (w0 .packed) (c0 .packed) (.advance .base b (-2)) ∧
      (ReadOp.run E0 (.difference .base a b)) (c0 .packed) (w0 .packed) = .ok 2 (c0 .packed) (w0 .packed) ∧
      (ReadOp.run E0 (.less .base a b)) (c0 .packed) (w0 .packed) = .ok true (c0 .packed) (w0 .packed) := by
  have h := reach0 .packed
  obtain ⟨a, b, a', b', h1, h2, -, -, h3, h4, -, -⟩ := C62_ends h (t := 0) (by rw [abs0]; decide)
  obtain ⟨l, h5, h6⟩ := C62_advance h h3 (j := 2) (by rw [abs0]; decide)
  refine ⟨h, a, l, h3, h6, ⟨_, _, _, h3, h6⟩, ⟨_, _, _, h3, h6⟩, ⟨_, _, 0, h6, Nat.zero_le _, rfl⟩, ?_, ?_⟩
  · show Prog.ofOption ((c0 .packed).difference .base a l) _ _ = _
    rw [C62_difference h h3 h6]
    rfl
  · show Prog.ofOption ((c0 .packed).less .base a l) _ _ = _
    rw [C62_less h h3 h6]
    rfl

open Sample in
/-- A comparison of two collections. -/
example (k : Kind) : (c0 k).Reachable E0 k (w0 k) ∧ Asks E0 k (w0 k) (c0 k) (.equal (c1 k)) ∧
    ReadOp.run E0 (.equal (c1 k)) (c0 k) (w0 k) = .ok false (c0 k) (w0 k) :=
  ⟨reach0 k, reach1 k, by cases k <;> rfl⟩

end PolyColl.Props
