import Verif.Props.Insertion
import Verif.Props.Whole
import Verif.Lemmas.RangeCopies
/-!
# Construction from a range (C81)

A collection is constructed from objects, from elements of one type known at compile time, or from
iterators of another collection.  As in `Props/Whole.lean`, a program has the collections `s 0`, `s 1`, …,
and `Op.run E k sub (.fromRange i al as)` constructs collection `i`.
-/

namespace PolyColl
open Prog Coll

variable {V : Type} {E : Env V} {k : Kind}

/-- `c` has exactly the elements of `l`, which are listed with their types: those of a type are in
order, and there is one segment for each type that occurs and for no other one. -/
structure Coll.Consists (c : Coll V) (l : List (Ty × V)) : Prop where
  elems : ∀ t, c.abs.elemsOf t = (l.filter fun p => p.1 = t).map Prod.snd
  types : ∀ t, t ∈ c.abs.types ↔ ∃ v, (t, v) ∈ l
  nodup : c.abs.types.Nodup

theorem Coll.Consists.of_appended {c : Coll V} {l : List (Ty × V)} (h : Spec.State.Appended l [] c.abs) : c.Consists l := by
  refine ⟨fun t => ?_, fun t => ?_, h.nodup (by simp [Spec.State.types])⟩
  · rw [h.elems t]
    simp [Spec.State.elemsOf, Spec.State.get]
  · rw [h.types t]
    simp [Spec.State.types]

/-- Collection `i` has been constructed with allocator `al` from the elements of `l`, and nothing else
has changed. -/
structure Sys.Built (s : Sys V) (i : Nat) (al : Alloc) (l : List (Ty × V)) (s' : Sys V) : Prop where
  consists : (s' i).Consists l
  alloc : (s' i).map.al = al
  others : ∀ x, x ≠ i → s' x = s x

namespace Props
variable {sub : Ty → TI} {H : Nat → Health} {s : Sys V} {w : World}

theorem empty_length (al : Alloc) (t : Ty) (n : Nat) : ((empty' k al : Coll V).abs.elemsOf t).length + n = n := Nat.zero_add n

theorem construct_built (h : s.Reached E k sub H w) {op : Op V} {i : Nat} {al : Alloc} {l : List (Ty × V)} {p : Prog (Sys V) (Coll V)} {P : Prop} {R : Exc → Prop}
    (ha : ∀ a ∈ op.args, Arg.OK E a) (hr : op.Replaces i) (hal : allocAfter E s op i = al) (hop : op.run E k sub s w = Sys.construct i p s w)
    (hp : Runs p s w (fun c z _ => z = s ∧ Spec.State.Appended l [] c.abs) (fun e z _ => z = s ∧ R e))
    (hq : Runs p s w (fun _ _ _ => P) (fun _ _ _ => True)) :
    Runs (op.run E k sub) s w (fun _ s' _ => s.Built i al l s' ∧ P) (fun e s' _ => s' = s ∧ R e) := by
  have hs : SysInv E k s w := ⟨fun j => ⟨(h.good.1 j).kind E, (h.good.1 j).kind E ▸ h.map j⟩, h.pos⟩
  have h1 : Runs (op.run E k sub) s w (fun _ s' _ => ((s' i).Consists l ∧ ∀ x, x ≠ i → s' x = s x) ∧ P) (fun e s' _ => s' = s ∧ R e) := by
    unfold Runs
    rw [hop]
    change Runs (Sys.construct i p) s w _ _
    unfold Sys.construct
    simp only [runs_bind, runs_get, runs_set]
    refine (hp.withLeaves hq.leaves).mono ?_ (fun _ _ _ h => h.1)
    rintro c z w' ⟨⟨rfl, h1⟩, h2⟩
    refine ⟨⟨?_, fun x hx => Sys.put_other z c hx⟩, h2⟩
    rw [Sys.put_same]
    exact .of_appended h1
  refine (h1.withLeaves (replaced_al h.ids op ha hs)).mono ?_ (fun _ _ _ h => h.1)
  rintro _ s' w' ⟨⟨⟨h1, h2⟩, h4⟩, h3⟩
  exact ⟨⟨h1, (h3 i hr).trans hal, h2⟩, h4⟩

/-- **C81** for objects: the new collection has exactly the objects of the range and the given
allocator, and no other collection changes.  If the construction throws nothing changes; the exception
is one of those an insertion of one of the objects throws, or `unregistered_type` for an object that
cannot be stored. -/
theorem C81_objects (h : s.Reached E k sub H w) (i : Nat) (al : Alloc) (as : List (Arg V)) (vs : List V) (hv : ArgsOf as vs)
    (ha : ∀ a ∈ as, Arg.OK E a) :
    Runs (Op.run E k sub (.fromRange i al as)) s w
      (fun _ s' w' => s'.Reached E k sub (Health.mark H [i] .sound) w' ∧ s.Built i al (tagged E as vs) s' ∧
        ∀ a ∈ as, a.src.copies → (E.traits (E.tiTy a.dyn)).copyable = true)
      (fun e s' w' => s'.Reached E k sub H w' ∧ s' = s ∧ ∃ a ∈ as,
        ExcFrom E (E.tiTy a.dyn) a.src.copies (E.TooMany (E.tiTy a.dyn) as.length) e ∨
        e = .unregistered (E.tiTy a.dyn) ∧ ¬ (a.acc = true ∧ E.tiTy a.dyn = E.tiTy a.stat)) := by
  obtain ⟨h1, h2, -⟩ := hv.spec
  refine (h.runs (.fromRange i al as) (by simp [Op.needs]) (fun a hm => ⟨ha a hm, h1 a hm⟩)
    (construct_built h (op := .fromRange i al as) (al := al) (l := tagged E as vs) ha rfl (if_pos rfl) rfl
      ((fromRange_runs E k al as vs s w h.pos (fun a hm => ⟨ha a hm, h1 a hm⟩) h2).mono ?_ ?_)
      (fromRange_copyable E k al as vs s w h.pos (fun a hm => ⟨ha a hm, h1 a hm⟩) h2))).mono
        (fun _ _ _ h => h) (fun _ _ _ h' => ⟨mark_nil H .sound ▸ h'.1 trivial, h'.2⟩)
  · rintro c z w' ⟨rfl, p', hi⟩
    exact ⟨rfl, typed_eq as vs ▸ hi.appended E (empty_good E k al h.pos)⟩
  · rintro e z w' ⟨rfl, c, h'⟩
    obtain ⟨a, hm, h' | ⟨h', -, h2⟩⟩ := h'.exc E (empty_good E k al h.pos)
    · exact ⟨rfl, a, hm, Or.inl (h'.mono id fun h => by rwa [empty_length] at h)⟩
    · exact ⟨rfl, a, hm, Or.inr ⟨h', h2⟩⟩

/-- Two objects of type 0 with one of type 3 in between. -/
example (k : Kind) : ∃ (sub : Ty → TI) (H : Nat → Health) (s : Sys Nat), s.Reached Sample.E0 k sub H (Sample.w0 k) ∧
    ArgsOf sampleArgs [10, 11, 12] ∧ (∀ a ∈ sampleArgs, Arg.OK Sample.E0 a) ∧ tagged Sample.E0 sampleArgs [10, 11, 12] = [(0, 10), (3, 11), (0, 12)] := by
  obtain ⟨sub, H, s, i, j, h, -⟩ := Sample.sys k
  refine ⟨sub, H, s, h, sampleArgs_of, ?_, rfl⟩
  unfold Arg.OK
  decide

/-- **C81** for elements of a type known exactly at compile time, from input or forward iterators. -/
theorem C81_terminal (h : s.Reached E k sub H w) (i : Nat) (al : Alloc) (fwd : Bool) (t : TI) (srcs : List (Src V)) (vs : List V) (hv : SrcsOf srcs vs) :
    Runs (Op.run E k sub (.fromTerminal i al fwd t srcs)) s w
      (fun _ s' w' => s'.Reached E k sub (Health.mark H [i] .sound) w' ∧ s.Built i al (vs.map fun v => (E.tiTy t, v)) s' ∧
        ((∃ src ∈ srcs, src.copies) → (E.traits (E.tiTy t)).copyable = true))
      (fun e s' w' => s'.Reached E k sub H w' ∧ s' = s ∧ vs ≠ [] ∧
        ExcFrom E (E.tiTy t) (∃ src ∈ srcs, src.copies) (E.TooMany (E.tiTy t) vs.length) e) := by
  obtain ⟨h1, h2, h3⟩ := hv.spec
  refine (h.runs (.fromTerminal i al fwd t srcs) (by simp [Op.needs]) h1
    (construct_built h (op := .fromTerminal i al fwd t srcs) (al := al) (l := vs.map fun v => (E.tiTy t, v)) (by simp [Op.args]) rfl (if_pos rfl) rfl
      (R := fun e => vs ≠ [] ∧ ExcFrom E (E.tiTy t) (∃ src ∈ srcs, src.copies) (E.TooMany (E.tiTy t) vs.length) e) ?_
      (fromTerminal_copyable E k al fwd t srcs vs s w h.pos h1 h2))).mono
        (fun _ _ _ h => h) (fun _ _ _ h' => ⟨mark_nil H .sound ▸ h'.1 trivial, h'.2⟩)
  cases srcs with
  | nil =>
    have : vs = [] := by simpa using h3.symm
    subst this
    exact ⟨rfl, .nil _⟩
  | cons src srcs =>
    have hne : 1 ≤ vs.length := by rw [← h3]; simp
    refine (fromTerminal_runs E k al fwd t _ vs s w h.pos h1 h2).mono ?_ ?_
    · rintro c z w' ⟨rfl, -, hi⟩
      exact ⟨rfl, hi⟩
    · rintro e z w' ⟨rfl, c, h'⟩
      refine ⟨rfl, fun e => by simp [e] at hne, (h'.exc E (empty_good E k al h.pos).map hne).mono id fun h => ?_⟩
      rwa [empty_length] at h

example (k : Kind) : ∃ (sub : Ty → TI) (H : Nat → Health) (s : Sys Nat), s.Reached Sample.E0 k sub H (Sample.w0 k) ∧
    SrcsOf [Src.copyExt 10, .moveExt 11] [10, 11] := by
  obtain ⟨sub, H, s, i, j, h, -⟩ := Sample.sys k
  exact ⟨sub, H, s, h, .cons (.inl rfl) (.cons (.inr (.inl rfl)) .nil)⟩

/-- **C81** for iterators of another collection, which stays as it is: the elements of the range are
copied, and `unregistered_type` is never thrown. -/
theorem C81_collection (h : s.Reached E k sub H w) {i j : Nat} (hij : i ≠ j) (hj : H j = .sound) (al : Alloc) {first last : GIter} {p q : Spec.State.Pos}
    (hf : (s j).At E first p) (hl : (s j).At E last q) (hpq : (s j).abs.rank p ≤ (s j).abs.rank q) :
    Runs (Op.run E k sub (.fromColl i j al first last)) s w
      (fun _ s' w' => s'.Reached E k sub (Health.mark H [i] .sound) w' ∧ s.Built i al (between (s j).abs p q) s' ∧
        ∀ x ∈ between (s j).abs p q, (E.traits x.1).copyable = true)
      (fun e s' w' => s'.Reached E k sub H w' ∧ s' = s ∧ ∃ t ∈ (between (s j).abs p q).map Prod.fst,
        ExcFrom E t True (E.TooMany t (between (s j).abs p q).length) e) := by
  have hk : (s j).kind = k := (h.good.1 j).kind E
  have h1 := fromColl_runs E h.ids (s j) w (h.inv hj) hf hl hpq al s w h.pos
  have h2 := fromColl_copyable E h.ids (s j) w (h.inv hj) hf hl hpq al s w h.pos
  rw [hk] at h1 h2
  refine (h.runs (.fromColl i j al first last) (by simpa [Op.needs] using hj) ⟨hij, p, q, hf, hl, hpq⟩
    (construct_built h (op := .fromColl i j al first last) (al := al) (l := between (s j).abs p q) (p := Coll.fromColl E sub k al (s j) first last)
      (by simp [Op.args]) rfl (if_pos rfl) (by simp only [Op.run, if_neg hij]; rfl) (h1.mono ?_ ?_) h2)).mono
        (fun _ _ _ h => h) (fun _ _ _ h' => ⟨mark_nil H .sound ▸ h'.1 trivial, h'.2⟩)
  · rintro c z w' ⟨rfl, p', hi⟩
    exact ⟨rfl, hi.appended E (empty_good E k al h.pos)⟩
  · rintro e z w' ⟨rfl, c, h'⟩
    obtain ⟨t, ht, h'⟩ := h'.exc E (empty_good E k al h.pos)
    exact ⟨rfl, t, ht, h'.mono id fun h => by rwa [empty_length] at h⟩

/-- All three elements of `c1`. -/
example (k : Kind) : ∃ (sub : Ty → TI) (H : Nat → Health) (s : Sys Nat) (i j : Nat), s.Reached Sample.E0 k sub H (Sample.w0 k) ∧ i ≠ j ∧ H j = .sound ∧
    (s j).At Sample.E0 (Sample.first1 k) (some (3, 0)) ∧ (s j).At Sample.E0 (s j).end none ∧ (s j).abs.rank (some (3, 0)) ≤ (s j).abs.rank none ∧
    between (s j).abs (some (3, 0)) none = [(3, 6), (0, 5), (0, 4)] := by
  obtain ⟨sub, H, s, i, j, h, hij, hi, hj, h0, h1⟩ := Sample.sys k
  refine ⟨sub, H, s, i, j, h, hij, hj, ?_⟩
  rw [h1]
  refine ⟨Sample.first1_at k, Sample.end1_at k, ?_, ?_⟩ <;> rw [Sample.abs1] <;> decide

/-- **C81** for local iterators of another collection. -/
theorem C81_local (h : s.Reached E k sub H w) {i j : Nat} (hij : i ≠ j) (hj : H j = .sound) (al : Alloc) {first last : LIter} {t : Ty} {a b : Nat}
    (hf : (s j).LAtB E first t a) (hl : (s j).LAtB E last t b) (hab : a ≤ b) :
    Runs (Op.run E k sub (.fromLocalColl i j al first last)) s w
      (fun _ s' w' => s'.Reached E k sub (Health.mark H [i] .sound) w' ∧ s.Built i al ((slice (s j).abs t a b).map fun v => (t, v)) s' ∧
        (slice (s j).abs t a b ≠ [] → (E.traits t).copyable = true))
      (fun e s' w' => s'.Reached E k sub H w' ∧ s' = s ∧ ExcFrom E t True (E.TooMany t (slice (s j).abs t a b).length) e) := by
  have hk : (s j).kind = k := (h.good.1 j).kind E
  have h1 := fromLocalColl_runs E h.ids (s j) w (h.inv hj) hf hl hab al s w h.pos
  have h2 := fromLocalColl_copyable E h.ids (s j) w (h.inv hj) hf hl hab al s w h.pos
  rw [hk] at h1 h2
  refine (h.runs (.fromLocalColl i j al first last) (by simpa [Op.needs] using hj) ⟨hij, t, a, b, hf, hl, hab⟩
    (construct_built h (op := .fromLocalColl i j al first last) (al := al) (l := (slice (s j).abs t a b).map fun v => (t, v))
      (p := Coll.fromLocalColl E sub k al (s j) first last) (by simp [Op.args]) rfl (if_pos rfl) (by simp only [Op.run, if_neg hij]; rfl) (h1.mono ?_ ?_) h2)).mono
        (fun _ _ _ h => h) (fun _ _ _ h' => ⟨mark_nil H .sound ▸ h'.1 trivial, h'.2⟩)
  · rintro c z w' ⟨rfl, p', hi⟩
    exact ⟨rfl, hi.appended E (empty_good E k al h.pos)⟩
  · rintro e z w' ⟨rfl, c, h'⟩
    obtain ⟨u, hu, h'⟩ := h'.exc E (empty_good E k al h.pos)
    simp only [List.map_map, List.mem_map, Function.comp] at hu
    obtain ⟨_, -, rfl⟩ := hu
    exact ⟨rfl, h'.mono id fun h => by rw [empty_length] at h; simpa using h⟩

/-- The second element of type 0 of `c1`. -/
example (k : Kind) : ∃ (sub : Ty → TI) (H : Nat → Health) (s : Sys Nat) (i j : Nat), s.Reached Sample.E0 k sub H (Sample.w0 k) ∧ i ≠ j ∧ H j = .sound ∧
    (s j).LAtB Sample.E0 (Sample.lbase1 k 1) 0 1 ∧ (s j).LAtB Sample.E0 (Sample.lbase1 k 2) 0 2 ∧ slice (s j).abs 0 1 2 = [4] := by
  obtain ⟨sub, H, s, i, j, h, hij, hi, hj, h0, h1⟩ := Sample.sys k
  refine ⟨sub, H, s, i, j, h, hij, hj, ?_⟩
  rw [h1]
  exact ⟨Sample.lbase1_at k (by decide), Sample.lbase1_at k (by decide), by rw [Sample.abs1]; rfl⟩

/-- Without faults, and if no segment becomes longer than allowed, construction from a range of another
collection succeeds if and only if all types of the range can be copied. -/
theorem C81_exactly (h : s.Reached E k sub H w) {i j : Nat} (hij : i ≠ j) (hj : H j = .sound) (al : Alloc) {first last : GIter} {p q : Spec.State.Pos}
    (hf : (s j).At E first p) (hl : (s j).At E last q) (hpq : (s j).abs.rank p ≤ (s j).abs.rank q) (hn : ∀ n, E.fault n = false)
    (hm : ∀ t, ¬ E.TooMany t (between (s j).abs p q).length) :
    (∃ s' w', Op.run E k sub (.fromColl i j al first last) s w = .ok () s' w') ↔ ∀ x ∈ between (s j).abs p q, (E.traits x.1).copyable = true := by
  have h1 := C81_collection h hij hj al hf hl hpq
  unfold Runs at h1
  revert h1
  cases Op.run E k sub (.fromColl i j al first last) s w with
  | ok a s' w' => exact fun h1 => ⟨fun _ => h1.2.2, fun _ => ⟨s', w', rfl⟩⟩
  | exc e s' w' =>
    rintro ⟨-, -, t, ht, h1⟩
    refine ⟨fun ⟨_, _, h⟩ => (by cases h), fun h2 => ?_⟩
    obtain ⟨x, hx, rfl⟩ := List.mem_map.1 ht
    rcases h1 with ⟨-, n, h1⟩ | ⟨-, n, h1⟩ | ⟨-, h1⟩ | ⟨-, h1, -⟩
    · rw [hn] at h1; cases h1
    · rw [hn] at h1; cases h1
    · exact absurd h1 (hm _)
    · rw [h2 x hx] at h1; cases h1
  | ub => exact fun h1 => h1.elim

/-- The types of `c1` can be copied, a type of `c0` cannot. -/
example (k : Kind) : ∃ (sub : Ty → TI) (H : Nat → Health) (s : Sys Nat) (i j : Nat), s.Reached Sample.E0 k sub H (Sample.w0 k) ∧ i ≠ j ∧
    H i = .sound ∧ H j = .sound ∧ (∀ n, Sample.E0.fault n = false) ∧
    (s j).At Sample.E0 (Sample.first1 k) (some (3, 0)) ∧ (s j).At Sample.E0 (s j).end none ∧ (s j).abs.rank (some (3, 0)) ≤ (s j).abs.rank none ∧
    (∀ t, ¬ Sample.E0.TooMany t (between (s j).abs (some (3, 0)) none).length) ∧
    (∀ x ∈ between (s j).abs (some (3, 0)) none, (Sample.E0.traits x.1).copyable = true) ∧
    (s i).At Sample.E0 (Sample.iter k 0) (some (1, 0)) ∧ (s i).At Sample.E0 (s i).end none ∧ (s i).abs.rank (some (1, 0)) ≤ (s i).abs.rank none ∧
    (∀ t, ¬ Sample.E0.TooMany t (between (s i).abs (some (1, 0)) none).length) ∧
    ¬ (∀ x ∈ between (s i).abs (some (1, 0)) none, (Sample.E0.traits x.1).copyable = true) := by
  obtain ⟨sub, H, s, i, j, h, hij, hi, hj, h0, h1⟩ := Sample.sys k
  refine ⟨sub, H, s, i, j, h, hij, hi, hj, fun _ => rfl, ?_⟩
  rw [h0, h1]
  refine ⟨Sample.first1_at k, Sample.end1_at k, ?_, ?_, ?_, Sample.iter_zero k, Sample.iter_end k, ?_, ?_, ?_⟩
  · rw [Sample.abs1]; decide
  · rw [Sample.abs1]
    rintro t (h | h)
    · change 1000 < 3 at h; omega
    · change 1001 ≤ 1000 at h; omega
  · rw [Sample.abs1]; decide
  · rw [Sample.abs0]; decide
  · rw [Sample.abs0]
    rintro t (h | h)
    · change 1000 < 5 at h; omega
    · change 1001 ≤ 1000 at h; omega
  · rw [Sample.abs0]; decide

theorem typedFlat_elems (s : Spec.State V) (hs : s.types.Nodup) (t : Ty) : (s.typedFlat.filter fun p => p.1 = t).map Prod.snd = s.elemsOf t := by
  induction s with
  | nil => rfl
  | cons a s ih =>
    obtain ⟨u, l⟩ := a
    simp only [Spec.State.types, List.map_cons, List.nodup_cons] at hs
    have ih := ih hs.2
    simp only [Spec.State.typedFlat, List.flatMap_cons, List.filter_append, List.map_append] at ih ⊢
    rw [ih]
    by_cases hu : u = t
    · subst hu
      rw [Spec.State.elemsOf_none (s := s) hs.1]
      simp [Spec.State.elemsOf, Spec.State.get, List.filter_map, Function.comp_def]
    · have hu' : (t == u) = false := beq_false_of_ne (fun h => hu h.symm)
      simp [Spec.State.elemsOf, Spec.State.get, List.filter_map, Function.comp_def, hu, List.lookup_cons, hu']

/-- A collection constructed from all of another one compares equal to it, if elements are equal to themselves
and their types can be compared: `poly_collection y(x.begin(),x.end());` gives `y==x`. -/
theorem C81_equal (h : s.Reached E k sub H w) {i j : Nat} (hij : i ≠ j) (hj : H j = .sound) (al : Alloc) {first last : GIter} {p : Spec.State.Pos}
    (hf : (s j).At E first p) (hp : (s j).abs.rank p = 0) (hl : (s j).At E last none) (he : ∀ v, E.eqv v v = true)
    (hq : ∀ t, (s j).abs.elemsOf t ≠ [] → (E.traits t).eqComparable = true) {s' : Sys V} {w' : World}
    (hr : Op.run E k sub (.fromColl i j al first last) s w = .ok () s' w') : IsEqual E (s' i) (s' j) := by
  have h1 := C81_collection h hij hj al hf hl (by rw [hp]; exact Nat.zero_le _)
  unfold Runs at h1
  rw [hr] at h1
  obtain ⟨h1, h2, -⟩ := h1
  have hb : between (s j).abs p none = (s j).abs.typedFlat := by
    have hl : (s j).abs.typedFlat.length = (s j).abs.flat.length := by
      simp [Spec.State.typedFlat, Spec.State.flat, List.length_flatMap]
    unfold Spec.State.between
    rw [hp, show (s j).abs.rank none = (s j).abs.flat.length by simp [Spec.State.rank], ← hl]
    simp
  rw [hb] at h2
  have h3 := (h1.coll (i := i) (by simp [Health.mark])).possible
  have h4 := (h1.coll (i := j) (by simp [Health.mark, hj])).possible
  rw [h2.others j (Ne.symm hij)] at h4 ⊢
  refine C37_same_contents h3 h4 he hq fun t => ?_
  rw [h2.consists.elems]
  exact typedFlat_elems _ (h.nodup j) t

/-- A collection with one element of type 0, constructed from another such collection. -/
example : ∃ (sub : Ty → TI) (H : Nat → Health) (s s' : Sys Nat) (i j : Nat) (w w' : World) (first : GIter), s.Reached Sample.E0 .packed sub H w ∧ i ≠ j ∧ H j = .sound ∧
    (s j).At Sample.E0 first (some (0, 0)) ∧ (s j).abs.rank (some (0, 0)) = 0 ∧ (s j).At Sample.E0 (s j).end none ∧ (s j).abs = [(0, [5])] ∧
    (∀ v, Sample.E0.eqv v v = true) ∧ (∀ t, (s j).abs.elemsOf t ≠ [] → (Sample.E0.traits t).eqComparable = true) ∧
    Op.run Sample.E0 .packed sub (.fromColl i j 3 first (s j).end) s w = .ok () s' w' := by
  have hr : Reachable2 Sample.E0 .packed Sample.mvc1 (Coll.empty' .packed 1) ⟨7, 7⟩ :=
    (Reachable2.start Sample.sub (Sample.sub_ty _) 0 1).stepL (.emplace 0 (.emplaced 5)) rfl rfl
  obtain ⟨sub, H, s, i, j, h1, h2, hij, hi, hj, h3, h4⟩ := hr
  have habs : Sample.mvc1.abs = [(0, [5])] := rfl
  have h : s.Reached Sample.E0 .packed sub H ⟨7, 7⟩ := ⟨h1, h2⟩
  obtain ⟨first, hf⟩ := exists_at (h.inv hi) (p := some (0, 0)) (by rw [h3, habs]; exact ⟨_, rfl, by decide⟩)
  have hl := at_end Sample.E0 (s i)
  have hk : (s i).abs.rank (some (0, 0)) ≤ (s i).abs.rank none := by rw [h3, habs]; decide
  have hm : ∀ t, ¬ Sample.E0.TooMany t (between (s i).abs (some (0, 0)) none).length := by
    rw [h3, habs]
    rintro t (h | h)
    · change 1000 < 1 at h; omega
    · change 1001 ≤ 1000 at h; omega
  obtain ⟨s', w', he⟩ := (C81_exactly h (Ne.symm hij) hi 3 hf hl hk (fun _ => rfl) hm).2 (by rw [h3, habs]; decide)
  refine ⟨sub, H, s, s', j, i, _, w', first, h, Ne.symm hij, hi, hf, by rw [h3, habs]; rfl, hl, by rw [h3, habs], fun v => by simp [Sample.E0, Sample.env], ?_, he⟩
  intro t ht
  rw [h3, habs] at ht
  by_cases h0 : t = 0
  · subst h0; rfl
  · exact absurd (Spec.State.elemsOf_none (by simpa [Spec.State.types] using h0)) ht

end Props
end PolyColl
