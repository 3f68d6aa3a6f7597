import Verif.Lemmas.CollMore
import Verif.Lemmas.Leaves
/-! # Hints and rehashing: exactly when hinted insertion is defined -/

namespace PolyColl
open Prog

/-! ### Rehashing -/

namespace TMap
variable {V : Type} {E : Env V}

/-- Iterators of the map are invalidated when the number of buckets changes. -/
def Rehashed (m m' : TMap V) : Prop := m'.gen = if m'.buckets = m.buckets then m.gen else m.gen + 1

theorem mapEmplace_rehash (key : TI) (x : Seg V) (m : TMap V) (w : World) :
    Leaves (mapEmplace E key x) m w (fun _ m' _ => Rehashed m m') (fun _ _ _ => True) := by
  unfold mapEmplace
  rw [leaves_bind, leaves_get, leaves_bind, leaves_locally]
  refine Leaves.trivial.mono (fun r _ w1 _ => ?_) (fun _ _ _ _ => trivial)
  obtain ⟨i, s⟩ := r
  dsimp only
  split
  · exact leaves_pure.2 (by simp [Rehashed])
  · rw [leaves_bind, leaves_world, leaves_ite]
    refine ⟨fun hc => ?_, fun hc => ?_⟩
    · rw [leaves_bind]
      refine Leaves.trivial.mono (fun _ _ _ _ => ?_) (fun _ _ _ _ => trivial)
      rw [leaves_bind, leaves_set]
      exact leaves_pure.2 (by simp [Rehashed])
    · rw [leaves_bind, leaves_set]
      exact leaves_pure.2 (by simp [Rehashed])

theorem cacheInsert_rehash (key : TI) (it : MapIt) (m : TMap V) (w : World) :
    Leaves (cacheInsert E key it) m w (fun _ m' _ => m'.buckets = m.buckets ∧ m'.gen = m.gen) (fun _ _ _ => True) := by
  unfold cacheInsert
  rw [leaves_bind, leaves_get]
  split
  · exact ⟨rfl, rfl⟩
  · rw [leaves_bind]
    exact Leaves.trivial.mono (fun _ _ _ _ => ⟨rfl, rfl⟩) (fun _ _ _ _ => trivial)

theorem insert_rehash (key : TI) (x : Seg V) (m : TMap V) (w : World) :
    Leaves (insert E key x) m w (fun _ m' _ => Rehashed m m') (fun _ _ _ => True) := by
  unfold insert
  rw [leaves_bind, leaves_get, leaves_bind]
  refine (mapEmplace_rehash key x m w).mono (fun p m1 w1 h1 => ?_) (fun _ _ _ h => h)
  rw [leaves_bind, leaves_get]
  have fin : ∀ m2 : TMap V, m2.buckets = m1.buckets → m2.gen = m1.gen → ∀ w2,
      Leaves (do cacheInsert E key p; return p : Prog (TMap V) MapIt) m2 w2 (fun _ m' _ => Rehashed m m') (fun _ _ _ => True) := by
    intro m2 hb hg w2
    rw [leaves_bind]
    refine (cacheInsert_rehash key p m2 w2).mono (fun _ m3 _ h3 => leaves_pure.2 ?_) (fun _ _ _ h => h)
    unfold Rehashed
    rw [h3.1, h3.2, hb, hg]
    exact h1
  dsimp only
  rw [leaves_ite]
  refine ⟨fun _ => ?_, fun _ => fin m1 rfl rfl _⟩
  unfold rebuildCache
  rw [leaves_bind, leaves_bind, leaves_get, leaves_set]
  refine fin { m1 with cache := _ } ?_ ?_ w1 <;> rfl

/-- Iterators from before a rehash. -/
theorem stale (hs : E.strictRehash = true) {m m' : TMap V} {it : MapIt} (hu : m.usable E it = true) (hr : Rehashed m m') (hb : m'.buckets ≠ m.buckets) :
    m'.usable E it = false := by
  unfold usable at *
  simp only [hs, Bool.not_true, Bool.false_or, beq_iff_eq] at hu ⊢
  rw [hr, if_neg hb, hu]
  simp

end TMap

namespace Coll
variable {V : Type} {E : Env V}

theorem insertNew_rehash (t : TI) (c : Coll V) (w : World) :
    Leaves (insertNew E t) c w (fun _ c' _ => TMap.Rehashed c.map c'.map) (fun _ _ _ => True) := by
  unfold insertNew
  rw [leaves_bind, leaves_get, leaves_bind]
  have h := (Seg.make_runs E c.kind (E.tiTy t) c.map.al c w).leaves
  refine h.mono ?_ (fun _ _ _ _ => trivial)
  rintro s c1 w1 ⟨rfl, -⟩
  unfold onMap
  rw [leaves_zoom]
  exact TMap.insert_rehash t s _ w1

/-- The look-up of a type that is not registered. -/
theorem find_new {c : Coll V} {w : World} (h : c.map.Inv E c.kind w) {t : TI} (ht : E.tiTy t ∉ c.abs.types) :
    onMap (TMap.find E t) c w = .ok (c.map.findConst E t) c w ∧ (c.map.findConst E t).node = none := by
  have hf := TMap.findConst_found E h t
  have hnone : (c.map.findConst E t).node = none := by
    rcases hf with ⟨n, hr, hk⟩ | ⟨hn, -⟩
    · refine absurd ?_ ht
      rw [← hk, ← h.ty n hr.mem]
      exact mem_types hr.mem
    · rw [hn]; rfl
  refine ⟨?_, hnone⟩
  have hm : TMap.find E t c.map w = .ok (c.map.findConst E t) c.map w := by
    unfold TMap.findConst at hnone ⊢
    cases hl : c.map.cache.lookup t with
    | some it =>
      unfold TMap.find
      simp only [bind, Prog.bind, Prog.get, hl]
      rfl
    | none =>
      simp only [hl] at hnone ⊢
      unfold TMap.find
      simp only [bind, Prog.bind, Prog.get, hl, hnone]
      rfl
  unfold onMap zoom
  rw [hm]

theorem forT_new {c : Coll V} {w : World} (h : c.map.Inv E c.kind w) {t : TI} (ht : E.tiTy t ∉ c.abs.types) :
    forT E t c w = insertNew E t c w := by
  obtain ⟨hfind, hnone⟩ := find_new h ht
  unfold forT
  simp only [bind, Prog.bind, hfind, hnone]
  rfl

end Coll
end PolyColl

namespace PolyColl
open Prog

namespace Prog
variable {X α β : Type} {x : X} {w : World}
variable {Q : α → X → World → Prop} {R : Exc → X → World → Prop} {U : Prop}

/-- All three outcomes. -/
def Ends (p : Prog X α) (x : X) (w : World) (Q : α → X → World → Prop) (R : Exc → X → World → Prop) (U : Prop) : Prop :=
  match p x w with
  | .ok a x' w' => Q a x' w'
  | .exc e x' w' => R e x' w'
  | .ub => U

theorem Ends.mono {p : Prog X α} {Q' : α → X → World → Prop} {R' : Exc → X → World → Prop} {U' : Prop} (h : Ends p x w Q R U)
    (hq : ∀ a x' w', Q a x' w' → Q' a x' w') (hr : ∀ e x' w', R e x' w' → R' e x' w') (hu : U → U') : Ends p x w Q' R' U' := by
  unfold Ends at *
  split <;> simp_all

theorem ends_bind {p : Prog X β} {f : β → Prog X α} :
    Ends (p >>= f) x w Q R U ↔ Ends p x w (fun b x' w' => Ends (f b) x' w' Q R U) R U := by
  show Ends (Prog.bind p f) x w Q R U ↔ _
  unfold Ends Prog.bind
  cases p x w <;> simp

theorem Runs.ends {p : Prog X α} (h : Runs p x w Q R) : Ends p x w Q R U := by
  unfold Runs at h; unfold Ends
  split <;> simp_all

theorem Ends.leaves {p : Prog X α} (h : Ends p x w Q R U) : Leaves p x w Q R := by
  unfold Ends at h; unfold Leaves
  split <;> simp_all

theorem Ends.defined {p : Prog X α} {x : X} {w : World} {Q : α → X → World → Prop} {R : Exc → X → World → Prop} {U : Prop}
    (h : Ends p x w Q R U) (hu : p x w ≠ .ub) : Runs p x w Q R := by
  unfold Ends at h
  unfold Runs
  revert h
  cases hq : p x w with
  | ok a x' w' => exact id
  | exc e x' w' => exact id
  | ub => exact absurd hq hu

theorem Ends.runs {p : Prog X α} (h : Ends p x w Q R U) (hu : ¬ U) : Runs p x w Q R := by
  unfold Ends at h; unfold Runs
  split <;> simp_all

theorem Ends.of_ub {p : Prog X α} (h : Ends p x w Q R U) (hu : p x w = .ub) : U := by
  unfold Ends at h; rw [hu] at h; exact h

theorem Ends.of_ok {p : Prog X α} (h : Ends p x w Q R U) {a : α} {x' : X} {w' : World} (hu : p x w = .ok a x' w') : Q a x' w' := by
  unfold Ends at h; rw [hu] at h; exact h

theorem ends_ub {p : Prog X α} (h : p x w = .ub) : Ends p x w Q R U ↔ U := by
  unfold Ends; rw [h]

end Prog

namespace Coll
variable {V : Type} (E : Env V)

/-- Registering the type succeeds and changes the number of buckets. -/
def Rehash (c : Coll V) (w : World) (t : TI) (c1 : Coll V) (w1 : World) : Prop :=
  E.tiTy t ∉ c.abs.types ∧ registerTypes E [t] c w = .ok () c1 w1 ∧ c1.map.buckets ≠ c.map.buckets ∧ c1.map.gen = c.map.gen + 1

/-- What looking a type up, or registering it, may do to the iterators of the map. -/
def Grew (c : Coll V) (w : World) (t : TI) (c1 : Coll V) (w1 : World) : Prop :=
  c1.map.gen = c.map.gen ∨ Rehash E c w t c1 w1

theorem insertNew_grew {c c1 : Coll V} {w w1 : World} {t : TI} {it : MapIt} (ht : E.tiTy t ∉ c.abs.types)
    (h : insertNew E t c w = .ok it c1 w1) : Grew E c w t c1 w1 := by
  have hr := insertNew_rehash (E := E) t c w
  unfold Leaves at hr
  rw [h] at hr
  by_cases hb : c1.map.buckets = c.map.buckets
  · exact Or.inl (by rw [hr, if_pos hb])
  · refine Or.inr ⟨ht, ?_, hb, by rw [hr, if_neg hb]⟩
    show Prog.bind (insertNew E t) (fun _ => Prog.pure ()) c w = .ok () c1 w1
    unfold Prog.bind
    rw [h]
    rfl

theorem Rehash.insertNew {c c1 : Coll V} {w w1 : World} {t : TI} (h : Rehash E c w t c1 w1) : ∃ it, insertNew E t c w = .ok it c1 w1 := by
  have hr' : Prog.bind (Coll.insertNew E t) (fun _ => Prog.pure ()) c w = .ok () c1 w1 := h.2.1
  unfold Prog.bind at hr'
  cases hi : Coll.insertNew E t c w with
  | ok i c' w' =>
    rw [hi] at hr'
    cases hr'
    exact ⟨i, rfl⟩
  | exc e c' w' => rw [hi] at hr'; cases hr'
  | ub => rw [hi] at hr'; cases hr'

/-- The look-up of a type that is registered leaves the map alone. -/
theorem find_ok {c c1 : Coll V} {w w1 : World} {t : TI} {it : MapIt} (h : c.map.Inv E c.kind w) (hf : onMap (TMap.find E t) c w = .ok it c1 w1) :
    c1.map.gen = c.map.gen ∧ (it.node = none → c1 = c ∧ w1 = w ∧ E.tiTy t ∉ c.abs.types) := by
  have hr := find_runs E t c w h
  unfold Runs at hr
  rw [hf] at hr
  obtain ⟨-, -, h3, -, h5⟩ := hr
  refine ⟨h3.gen, fun hn => ?_⟩
  rcases h5 with ⟨-, h6⟩ | ⟨-, h6⟩
  · exact absurd hn h6
  · have ht : E.tiTy t ∉ c.abs.types := by
      intro hm
      obtain ⟨n, hn, e⟩ := types_mem hm
      exact h6 n hn e
    rw [(find_new h ht).1] at hf
    cases hf
    exact ⟨rfl, rfl, ht⟩


theorem forT_grew {c c1 : Coll V} {w w1 : World} {t : TI} {it : MapIt} (h : c.map.Inv E c.kind w) (hf : forT E t c w = .ok it c1 w1) :
    Grew E c w t c1 w1 := by
  by_cases ht : E.tiTy t ∈ c.abs.types
  · have hr := forT_runs E t c w h
    unfold Runs at hr
    rw [hf] at hr
    obtain ⟨n, ens, -⟩ := hr
    exact Or.inl (ens.old E h ht).1.gen
  · rw [forT_new h ht] at hf
    exact insertNew_grew E ht hf

theorem forProto_new {c : Coll V} {w : World} (h : c.map.Inv E c.kind w) {id : TI} {s : Seg V} (hk : s.kind = c.kind) (ht : s.ty = E.tiTy id)
    (hn : E.tiTy id ∉ c.abs.types) : forProto E id s c w = insertNew E id c w := by
  obtain ⟨hfind, hnone⟩ := find_new h hn
  unfold forProto Seg.makeFromPrototype
  rw [hk, ht]
  simp only [bind, Prog.bind, hfind, hnone]
  rfl

theorem forProto_grew {c c1 : Coll V} {w w1 : World} {id : TI} {s : Seg V} {it : MapIt} (h : c.map.Inv E c.kind w) (hk : s.kind = c.kind)
    (ht : s.ty = E.tiTy id) (hf : forProto E id s c w = .ok it c1 w1) : Grew E c w id c1 w1 := by
  by_cases hn : E.tiTy id ∈ c.abs.types
  · have hr := forProto_runs E id s c w h hk ht
    unfold Runs at hr
    rw [hf] at hr
    obtain ⟨n, ens, -⟩ := hr
    exact Or.inl (ens.old E h hn).1.gen
  · rw [forProto_new E h hk ht hn] at hf
    exact insertNew_grew E hn hf

theorem forArg_new {c : Coll V} {w : World} (h : c.map.Inv E c.kind w) {a : Arg V} (hacc : a.acc = true) (hd : E.tiTy a.dyn = E.tiTy a.stat)
    (hn : E.tiTy a.dyn ∉ c.abs.types) : forArg E a c w = insertNew E a.stat c w := by
  unfold forArg
  rw [if_pos hacc]
  split
  · exact forT_new h (hd ▸ hn)
  · obtain ⟨hfind, hnone⟩ := find_new h hn
    simp only [bind, Prog.bind, hfind, hnone, hd]
    rw [if_neg (by simp), if_neg (by simp)]

theorem forArg_grew {c c1 : Coll V} {w w1 : World} {a : Arg V} {it : MapIt} (h : c.map.Inv E c.kind w) (ha : Arg.OK E a)
    (hf : forArg E a c w = .ok it c1 w1) :
    c1.map.gen = c.map.gen ∨ a.acc = true ∧ E.tiTy a.dyn = E.tiTy a.stat ∧ Rehash E c w a.stat c1 w1 := by
  have hr := forArg_runs E a ha c w h
  unfold Runs at hr
  rw [hf] at hr
  obtain ⟨n, ens, -, hor⟩ := hr
  by_cases hn : E.tiTy a.dyn ∈ c.abs.types
  · exact Or.inl (ens.old E h hn).1.gen
  · rcases hor with hm | ⟨hacc, hd⟩
    · exact absurd (ens.ty ▸ mem_types hm) hn
    · rw [forArg_new E h hacc hd hn] at hf
      exact (insertNew_grew E (hd ▸ hn) hf).imp id (fun hr => ⟨hacc, hd, hr⟩)

/-- Either the hint has become stale, or it is as good as before. -/
def Fork (hint : GIter) (p : Spec.State.Pos) (c : Coll V) (it : MapIt) (c1 : Coll V) (U : Prop) : Prop :=
  (E.strictRehash = true ∧ U ∧ c1.map.itEq E hint.mapit it = none) ∨
    (c1.At E hint p ∧ (E.strictRehash = true → c1.map.gen = c.map.gen))

theorem Ens.fork {c c1 : Coll V} {w w1 : World} {T : Ty} {n : Node V} (ens : Ens E c w T n c1 w1) {U : Prop}
    (hg : c1.map.gen = c.map.gen ∨ c1.map.gen = c.map.gen + 1 ∧ U) {hint : GIter} {p : Spec.State.Pos} (ha : c.At E hint p) (it : MapIt) :
    Fork E hint p c it c1 U := by
  have key : (∀ i : MapIt, c.map.usable E i = true → c1.map.usable E i = true) → c1.At E hint p := by
    intro h
    refine ⟨h _ ha.usable, h _ ha.endUsable, ha.endNode, ?_⟩
    have hp := ha.pos
    cases p with
    | none => exact hp
    | some q =>
      obtain ⟨a, h1, h2⟩ := hp
      exact ⟨a, ens.mem_old E h1, h2⟩
  rcases hg with hg | ⟨hg, hU⟩
  · exact Or.inr ⟨key (fun i hi => by simpa [TMap.usable, hg] using hi), fun _ => hg⟩
  · cases hs : E.strictRehash with
    | false => exact Or.inr ⟨key (fun i hi => by simp [TMap.usable, hs]), fun h => absurd (hs.symm.trans h) (by decide)⟩
    | true =>
      refine Or.inl ⟨hs, hU, ?_⟩
      have hu := ha.usable
      simp only [TMap.usable, hs, Bool.not_true, Bool.false_or, beq_iff_eq] at hu
      simp [TMap.itEq, TMap.usable, hs, hu, hg]

theorem forT_fork {hint : GIter} {p : Spec.State.Pos} (t : TI) (c : Coll V) (w : World) (h : c.map.Inv E c.kind w) (ha : c.At E hint p) :
    Runs (forT E t) c w
      (fun it c1 w1 => (∃ n, Ens E c w (E.tiTy t) n c1 w1 ∧ c1.map.Ref it n) ∧ Fork E hint p c it c1 (Rehash E c w t c1 w1))
      (EnsFail E c w (E.tiTy t)) := by
  refine (forT_runs E t c w h).withEq.mono ?_ (fun _ _ _ h => h.1)
  rintro it c1 w1 ⟨⟨n, ens, hr⟩, he⟩
  exact ⟨⟨n, ens, hr⟩, ens.fork E ((forT_grew E h he).imp id (fun r => ⟨r.2.2.2, r⟩)) ha it⟩

theorem forProto_fork {hint : GIter} {p : Spec.State.Pos} (id : TI) (s : Seg V) (c : Coll V) (w : World) (h : c.map.Inv E c.kind w)
    (hk : s.kind = c.kind) (ht : s.ty = E.tiTy id) (ha : c.At E hint p) :
    Runs (forProto E id s) c w
      (fun it c1 w1 => (∃ n, Ens E c w (E.tiTy id) n c1 w1 ∧ c1.map.Ref it n) ∧ Fork E hint p c it c1 (Rehash E c w id c1 w1))
      (EnsFail E c w (E.tiTy id)) := by
  refine (forProto_runs E id s c w h hk ht).withEq.mono ?_ (fun _ _ _ h => h.1)
  rintro it c1 w1 ⟨⟨n, ens, hr⟩, he⟩
  exact ⟨⟨n, ens, hr⟩, ens.fork E ((forProto_grew E h hk ht he).imp _root_.id (fun r => ⟨r.2.2.2, r⟩)) ha it⟩

/-- The argument's type gets registered, and this rehashes. -/
def ArgRehash (c : Coll V) (w : World) (a : Arg V) (c1 : Coll V) (w1 : World) : Prop :=
  a.acc = true ∧ E.tiTy a.dyn = E.tiTy a.stat ∧ Rehash E c w a.stat c1 w1

theorem forArg_fork {hint : GIter} {p : Spec.State.Pos} (a : Arg V) (c : Coll V) (w : World) (h : c.map.Inv E c.kind w)
    (hok : Arg.OK E a) (ha : c.At E hint p) :
    Runs (forArg E a) c w
      (fun it c1 w1 => (∃ n, Ens E c w (E.tiTy a.dyn) n c1 w1 ∧ c1.map.Ref it n ∧ (n ∈ c.map.nodes ∨ a.acc = true ∧ E.tiTy a.dyn = E.tiTy a.stat)) ∧
        Fork E hint p c it c1 (ArgRehash E c w a c1 w1))
      (fun e c' w' => EnsFail E c w (E.tiTy a.dyn) e c' w' ∨
        (e = .unregistered (E.tiTy a.dyn) ∧ c'.map.Inv E c'.kind w' ∧ TMap.SameNodes c.map c'.map ∧ c'.kind = c.kind ∧ w.next ≤ w'.next ∧
          (∀ n ∈ c.map.nodes, n.seg.ty ≠ E.tiTy a.dyn) ∧ ¬ (a.acc = true ∧ E.tiTy a.dyn = E.tiTy a.stat))) := by
  refine (forArg_runs E a hok c w h).withEq.mono ?_ (fun _ _ _ h => h.1)
  rintro it c1 w1 ⟨⟨n, ens, hr⟩, he⟩
  exact ⟨⟨n, ens, hr⟩, ens.fork E ((forArg_grew E h hok he).imp id (fun r => ⟨r.2.2.2.2.2, r⟩)) ha it⟩

theorem hintStep_stale {c : Coll V} {w : World} {hint : GIter} {it : MapIt} {t : Ty} {src : Src V} (h : c.map.itEq E hint.mapit it = none) :
    hintStep E hint it t src c w = .ub := by
  unfold hintStep
  simp only [bind, Prog.bind, Prog.get, h]
  rfl

/-- `emplace_hint`: all outcomes. -/
theorem emplaceHint_ends (hint : GIter) (p : Spec.State.Pos) (t : TI) (src : Src V) (v : V) (c : Coll V) (w : World) (hc : c.Inv E w)
    (hs : c.SrcFor (E.tiTy t) src v) (hh : c.At E hint p) :
    Ends (emplaceHint E hint t src) c w
      (fun it c' w' => (Inserted E c w (E.tiTy t) (c.abs.hintPos (E.tiTy t) p) [v] c' w' ∧
        c'.At E it (some (E.tiTy t, c.abs.hintPos (E.tiTy t) p)) ∧ (src.copies → (E.traits (E.tiTy t)).copyable = true)))
      (InsFail E c w (E.tiTy t) (c.abs.hintPos (E.tiTy t) p) src.copies)
      (E.strictRehash = true ∧ ∃ c1 w1, Rehash E c w t c1 w1) := by
  unfold emplaceHint
  rw [ends_bind]
  refine (forT_fork E t c w hc.map hh).ends.mono ?_ (fun _ _ _ h => .reg h) id
  rintro it c1 w1 ⟨⟨n, ens, href⟩, ⟨f1, f2, f3⟩ | ⟨f1, -⟩⟩
  · refine (ends_ub ?_).2 ⟨f1, _, _, f2⟩
    simp only [bind, Prog.bind, Prog.get, f3]
    rfl
  · refine Runs.ends ?_
    rw [runs_bind, runs_get]
    have hg := ens.good E (stable_inv E) hc
    exact hinted_runs E hint p src v hc hs ens href f1
      (op := fun p => Seg.emplace E (.base p) src)
      (fun k hk => Seg.emplace_runs E n.seg w1 (hg.mem.segs n ens.mem).core (.base (n.seg.base k)) k ⟨hk, rfl⟩ src v (hs.ok E hc.map ens))

/-- `insert(hint,x)`: all outcomes. -/
theorem insertHint_ends (hint : GIter) (p : Spec.State.Pos) (a : Arg V) (v : V) (ha : Arg.OK E a) (c : Coll V) (w : World) (hc : c.Inv E w)
    (hs : c.SrcFor (E.tiTy a.dyn) a.src v) (hh : c.At E hint p) :
    Ends (insertHint E hint a) c w
      (fun it c' w' => Inserted E c w (E.tiTy a.dyn) (c.abs.hintPos (E.tiTy a.dyn) p) [v] c' w' ∧
        c'.At E it (some (E.tiTy a.dyn, c.abs.hintPos (E.tiTy a.dyn) p)))
      (ArgFail E c w a (c.abs.hintPos (E.tiTy a.dyn) p))
      (E.strictRehash = true ∧ ∃ c1 w1, ArgRehash E c w a c1 w1) := by
  unfold insertHint pushBackArg
  rw [ends_bind]
  refine (forArg_fork E a c w hc.map ha hh).ends.mono ?_ (fun _ _ _ h => h.imp .reg id) id
  rintro it c1 w1 ⟨⟨n, ens, href, -⟩, ⟨f1, f2, f3⟩ | ⟨f1, -⟩⟩
  · refine (ends_ub ?_).2 ⟨f1, _, _, f2⟩
    simp only [bind, Prog.bind, Prog.get, f3]
    rfl
  · refine Runs.ends ?_
    rw [runs_bind, runs_get]
    have hg := ens.good E (stable_inv E) hc
    refine (hinted_runs E hint p a.src v hc hs ens href f1 (op := fun p => Seg.insertBase E p a.src)
      (fun k hk => Seg.insertBase_runs E n.seg w1 (hg.mem.segs n ens.mem).core k hk a.src v (hs.ok E hc.map ens))).mono ?_ ?_
    · rintro g c' w' ⟨b1, b2, -⟩
      exact ⟨b1, b2⟩
    · intro e c' w' h
      exact Or.inl h

/-- Nothing of the map has been rehashed. -/
theorem gen_of_refs {m m' : TMap V} {it : MapIt} {n n' : Node V} (h : m.Ref it n) (h' : m'.Ref it n') : m'.gen = m.gen := by
  rw [← h.gen, ← h'.gen]

/-- The range operations: somewhere on the way a type gets registered, and this rehashes. -/
inductive SeqRehash (hint : GIter) : List (Arg V) → Coll V → World → Prop where
  | mk {as1 as2 : List (Arg V)} {a : Arg V} {c c1 c2 : Coll V} {w w1 w2 : World} {g : GIter}
      (h1 : insertHintRange E hint as1 c w = .ok g c1 w1) (h2 : ArgRehash E c1 w1 a c2 w2) : SeqRehash hint (as1 ++ a :: as2) c w

theorem insertHintRange_cons {hint h : GIter} {a : Arg V} {as : List (Arg V)} {c c1 c2 : Coll V} {w w1 w2 : World} {it : MapIt}
    (e1 : forArg E a c w = .ok it c1 w1) (e2 : hintStep E hint it (E.tiTy a.dyn) a.src c1 w1 = .ok h c2 w2) :
    insertHintRange E hint (a :: as) c w = insertHintRange E h as c2 w2 := by
  rw [insertHintRange]
  simp only [bind, Prog.bind, e1, e2]

theorem insertHintRange_ends (as : List (Arg V)) : ∀ (hint : GIter) (p : Spec.State.Pos) (vs : List V) (c : Coll V) (w : World), c.Inv E w →
    c.At E hint p → (∀ a ∈ as, Arg.OK E a ∧ a.src.ext = true) → as.map (fun a => a.src.val Vec.nil) = vs.map some →
    Ends (insertHintRange E hint as) c w
      (fun h c' w' => (∃ p', Adds E c w p (typed E as vs) c' w' p' ∧ c'.At E h p') ∧ (E.strictRehash = true → c'.map.gen = c.map.gen))
      (SeqFail E c w p as vs) (E.strictRehash = true ∧ SeqRehash E hint as c w) := by
  induction as with
  | nil =>
    intro hint p vs c w hc hh ha hv
    have : vs = [] := by simpa using hv.symm
    subst this
    exact ⟨⟨p, .nil _ _ _, hh⟩, fun _ => rfl⟩
  | cons a as ih =>
    intro hint p vs c w hc hh ha hv
    cases vs with
    | nil => simp at hv
    | cons v vs =>
    simp only [List.map_cons, List.cons.injEq] at hv
    obtain ⟨h1, h2⟩ := ha a (by simp)
    rw [insertHintRange, ends_bind]
    refine (forArg_fork E a c w hc.map h1 hh).withEq.ends.mono ?_ (fun _ _ _ h => SeqFail.head E (h.1.imp .reg id)) id
    rintro it c1 w1 ⟨⟨⟨n, ens, href, -⟩, hfork⟩, he1⟩
    rw [ends_bind]
    rcases hfork with ⟨f1, f2, f3⟩ | ⟨f1, fg⟩
    · exact (ends_ub (hintStep_stale E f3)).2 ⟨f1, .mk (as1 := []) rfl f2⟩
    refine (hintStep_runs E hint p a.src v hc (Or.inl ⟨h2, hv.1⟩) ens href f1).withEq.ends.mono ?_ ?_ id
    · rintro h c2 w2 ⟨⟨b1, b2, n', b3, -⟩, he2⟩
      refine (ih h _ vs c2 w2 (b1.inv E hc) b2 (fun b hb => ha b (by simp [hb])) hv.2).mono ?_ ?_ ?_
      · rintro h' c' w' ⟨⟨p', d, d'⟩, dg⟩
        exact ⟨⟨p', .cons b1 d, d'⟩, fun hs => (dg hs).trans ((gen_of_refs href b3).trans (fg hs))⟩
      · intro e c' w' d
        exact d.cons E b1
      · rintro ⟨u1, @⟨as1, as2, b, _, c3, c4, _, w3, w4, g, u2, u3⟩⟩
        refine ⟨u1, .mk (as1 := a :: as1) (g := g) (c1 := c3) (w1 := w3) ?_ u3⟩
        rw [insertHintRange_cons E he1 he2, u2]
    · intro e c' w' d
      exact SeqFail.head E (Or.inl d.1)

/-- Ranges of another collection: the same. -/
inductive FromRehash (hint : GIter) : List (Item V) → Coll V → World → Prop where
  | mk {xs1 xs2 : List (Item V)} {x : Item V} {c c1 c2 : Coll V} {w w1 w2 : World} {g : GIter}
      (h1 : insertHintFrom E hint xs1 c w = .ok g c1 w1) (h2 : Rehash E c1 w1 x.id c2 w2) : FromRehash hint (xs1 ++ x :: xs2) c w

theorem insertHintFrom_cons {hint h : GIter} {x : Item V} {xs : List (Item V)} {c c1 c2 : Coll V} {w w1 w2 : World} {it : MapIt}
    (e1 : forProto E x.id x.proto c w = .ok it c1 w1) (e2 : hintStep E hint it (E.tiTy x.id) (.copyExt x.val) c1 w1 = .ok h c2 w2) :
    insertHintFrom E hint (x :: xs) c w = insertHintFrom E h xs c2 w2 := by
  rw [insertHintFrom]
  simp only [bind, Prog.bind, e1, e2]

theorem insertHintFrom_ends (xs : List (Item V)) : ∀ (hint : GIter) (p : Spec.State.Pos) (c : Coll V) (w : World), c.Inv E w →
    c.At E hint p → (∀ x ∈ xs, x.proto.kind = c.kind ∧ x.proto.ty = E.tiTy x.id) →
    Ends (insertHintFrom E hint xs) c w
      (fun h c' w' => (∃ p', Adds E c w p (typedItems E xs) c' w' p' ∧ c'.At E h p') ∧ (E.strictRehash = true → c'.map.gen = c.map.gen))
      (FromFail E c w p (typedItems E xs)) (E.strictRehash = true ∧ FromRehash E hint xs c w) := by
  induction xs with
  | nil => intro hint p c w hc hh hx; exact ⟨⟨p, .nil _ _ _, hh⟩, fun _ => rfl⟩
  | cons x xs ih =>
    intro hint p c w hc hh hx
    obtain ⟨h1, h2⟩ := hx x (by simp)
    rw [insertHintFrom, ends_bind]
    refine (forProto_fork E x.id x.proto c w hc.map h1 h2 hh).withEq.ends.mono ?_ (fun _ _ _ h => FromFail.head E (.reg h.1)) id
    rintro it c1 w1 ⟨⟨⟨n, ens, hr⟩, hfork⟩, he1⟩
    rw [ends_bind]
    rcases hfork with ⟨f1, f2, f3⟩ | ⟨f1, fg⟩
    · exact (ends_ub (hintStep_stale E f3)).2 ⟨f1, .mk (xs1 := []) rfl f2⟩
    refine (hintStep_runs E hint p (.copyExt x.val) x.val hc (Or.inl ⟨rfl, rfl⟩) ens hr f1).withEq.ends.mono ?_ ?_ id
    · rintro h c2 w2 ⟨⟨b1, b2, n', b3, -⟩, he2⟩
      refine (ih h _ c2 w2 (b1.inv E hc) b2 (fun y hy => ?_)).mono ?_ ?_ ?_
      · rw [b1.kind E]; exact hx y (by simp [hy])
      · rintro h' c' w' ⟨⟨p', d, d'⟩, dg⟩
        exact ⟨⟨p', .cons b1 d, d'⟩, fun hs => (dg hs).trans ((gen_of_refs hr b3).trans (fg hs))⟩
      · intro e c' w' d
        exact d.cons E b1
      · rintro ⟨u1, @⟨as1, as2, b, _, c3, c4, _, w3, w4, g, u2, u3⟩⟩
        refine ⟨u1, .mk (xs1 := x :: as1) (g := g) (c1 := c3) (w1 := w3) ?_ u3⟩
        rw [insertHintFrom_cons E he1 he2, u2]
    · intro e c' w' d
      exact FromFail.head E (d.1.mono E (fun _ => trivial))

theorem insertHintFromLocal_ends (hint : GIter) (p : Spec.State.Pos) (id : TI) (proto : Seg V) (vals : List V) (c : Coll V) (w : World) (hc : c.Inv E w)
    (hh : c.At E hint p) (hk : proto.kind = c.kind) (ht : proto.ty = E.tiTy id) :
    Ends (insertHintFromLocal E hint id proto vals) c w
      (fun h c' w' => ∃ p', Adds E c w p (vals.map fun v => (E.tiTy id, v)) c' w' p' ∧ c'.At E h p')
      (FromFail E c w p (vals.map fun v => (E.tiTy id, v))) (E.strictRehash = true ∧ vals ≠ [] ∧ ∃ c1 w1, Rehash E c w id c1 w1) := by
  unfold insertHintFromLocal
  cases vals with
  | nil => exact ⟨p, .nil _ _ _, hh⟩
  | cons v vs =>
    rw [if_neg (by simp), ends_bind]
    refine (forProto_fork E id proto c w hc.map hk ht hh).ends.mono ?_ (fun _ _ _ h => FromFail.head E (.reg h)) _root_.id
    rintro it c1 w1 ⟨⟨n, ens, hr⟩, ⟨f1, f2, f3⟩ | ⟨f1, -⟩⟩
    · rw [hintLoop, ends_bind]
      exact (ends_ub (hintStep_stale E f3)).2 ⟨f1, by simp, _, _, f2⟩
    · refine (hintLoop_runs E it (E.tiTy id) (v :: vs) hint p c1 w1 n (ens.good E (stable_inv E) hc) f1 hr ens.ty).ends.mono ?_ ?_ _root_.id
      · rintro h c' w' ⟨p', d, d'⟩
        exact ⟨p', Adds.of_ens E hc.map ens d, d'⟩
      · intro e c' w' d
        exact FromFail.of_ens E hc.map ens d

theorem insertHintRangeTerminal_ends (hint : GIter) (p : Spec.State.Pos) (fwd : Bool) (t : TI) (srcs : List (Src V)) (vs : List V) (c : Coll V) (w : World)
    (hc : c.Inv E w) (hh : c.At E hint p) (hext : ∀ src ∈ srcs, src.ext = true) (hv : srcs.map (Src.val Vec.nil) = vs.map some) :
    Ends (insertHintRangeTerminal E hint fwd t srcs) c w
      (fun _ c' w' => vs = [] ∧ c' = c ∧ w' = w ∨ vs ≠ [] ∧ Inserted E c w (E.tiTy t) (c.abs.hintPos (E.tiTy t) p) vs c' w')
      (TermFail E c w (E.tiTy t) (fwd = true ∧ c.abs.hintPos (E.tiTy t) p = (c.abs.elemsOf (E.tiTy t)).length) (∃ src ∈ srcs, src.copies) vs.length)
      (E.strictRehash = true ∧ srcs ≠ [] ∧ ∃ c1 w1, Rehash E c w t c1 w1) := by
  have hlen : srcs.length = vs.length := by have := congrArg List.length hv; simpa using this
  unfold insertHintRangeTerminal
  split
  · rename_i h0
    subst h0
    exact Or.inl ⟨List.length_eq_zero_iff.1 hlen.symm, rfl, rfl⟩
  · rename_i h0
    have hne : vs ≠ [] := fun e => by rw [e] at hlen; exact h0 (List.length_eq_zero_iff.1 hlen)
    rw [ends_bind]
    refine (forT_fork E t c w hc.map hh).ends.mono ?_ (fun _ _ _ h => .reg h) id
    rintro it c1 w1 ⟨⟨n, ens, hr⟩, ⟨f1, f2, f3⟩ | ⟨f1, -⟩⟩
    · refine (ends_ub ?_).2 ⟨f1, h0, _, _, f2⟩
      simp only [bind, Prog.bind, Prog.get, f3]
      rfl
    · exact (terminalHint_runs E hint p fwd t srcs vs hc ens hr f1 hext hv hne).ends

theorem insertHintColl_ends {sub : Ty → TI} (hsub : ∀ t, E.tiTy (sub t) = t) (src : Coll V) (w0 : World) (hs : src.Inv E w0) {first last : GIter}
    {p q : Spec.State.Pos} (hf : src.At E first p) (hl : src.At E last q) (hpq : src.abs.rank p ≤ src.abs.rank q)
    (hint : GIter) (h : Spec.State.Pos)
    (c : Coll V) (w : World) (hc : c.Inv E w) (hk : src.kind = c.kind) (hh : c.At E hint h) :
    ∃ items, src.collect E sub last first (src.size + 1) = some items ∧ typedItems E items = between src.abs p q ∧
      Ends (insertHintColl E sub hint src first last) c w
        (fun g c' w' => (∃ h', Adds E c w h (between src.abs p q) c' w' h' ∧ c'.At E g h') ∧ (E.strictRehash = true → c'.map.gen = c.map.gen))
        (FromFail E c w h (between src.abs p q)) (E.strictRehash = true ∧ FromRehash E hint items c w) := by
  obtain ⟨items, h1, h2, h3⟩ := collect_between E hs hsub hf hl hpq
  refine ⟨items, h1, h2, ?_⟩
  unfold insertHintColl
  rw [ends_bind, h1, ← h2]
  exact insertHintFrom_ends E items hint h c w hc hh (fun i hi => ⟨(h3 i hi).1.trans hk, (h3 i hi).2⟩)

theorem insertHintLocalColl_ends {sub : Ty → TI} (hsub : ∀ t, E.tiTy (sub t) = t) (src : Coll V) (w0 : World) (hs : src.Inv E w0) {first last : LIter}
    {t : Ty} {a b : Nat} (hf : src.LAtB E first t a) (hl : src.LAtB E last t b) (hab : a ≤ b)
    (hint : GIter) (h : Spec.State.Pos)
    (c : Coll V) (w : World) (hc : c.Inv E w) (hk : src.kind = c.kind) (hh : c.At E hint h) :
    Ends (insertHintLocalColl E sub hint src first last) c w
      (fun g c' w' => ∃ h', Adds E c w h ((slice src.abs t a b).map fun v => (t, v)) c' w' h' ∧ c'.At E g h')
      (FromFail E c w h ((slice src.abs t a b).map fun v => (t, v)))
      (E.strictRehash = true ∧ slice src.abs t a b ≠ [] ∧ ∃ c1 w1, Rehash E c w (sub t) c1 w1) := by
  obtain ⟨s, h1, h2, h3⟩ := collectLocal_at E hs hf hl hab
  unfold insertHintLocalColl
  rw [ends_bind, h1]
  have := insertHintFromLocal_ends E hint h (sub s.ty) s (slice src.abs t a b) c w hc hh (h2.trans hk) (by rw [hsub])
  rw [hsub, h3] at this
  exact h3 ▸ this

/-! ### Rehashing makes hinted insertion undefined -/

theorem Rehash.stale {c c1 : Coll V} {w w1 : World} {t : TI} (h : Rehash E c w t c1 w1) (hs : E.strictRehash = true) {hint : GIter}
    {p : Spec.State.Pos} (ha : c.At E hint p) (it : MapIt) : c1.map.itEq E hint.mapit it = none := by
  have hu := ha.usable
  simp only [TMap.usable, hs, Bool.not_true, Bool.false_or, beq_iff_eq] at hu
  simp [TMap.itEq, TMap.usable, hs, hu, h.2.2.2]

theorem emplaceHint_rehash {hint : GIter} {p : Spec.State.Pos} {t : TI} {src : Src V} {c c1 : Coll V} {w w1 : World} (hc : c.map.Inv E c.kind w)
    (hh : c.At E hint p) (hs : E.strictRehash = true) (hr : Rehash E c w t c1 w1) : emplaceHint E hint t src c w = .ub := by
  obtain ⟨it, hi⟩ := hr.insertNew E
  have hf := (forT_new hc hr.1).trans hi
  unfold emplaceHint
  simp only [bind, Prog.bind, hf, Prog.get, hr.stale E hs hh it]
  rfl

theorem insertHint_rehash {hint : GIter} {p : Spec.State.Pos} {a : Arg V} {c c1 : Coll V} {w w1 : World} (hc : c.map.Inv E c.kind w)
    (hh : c.At E hint p) (hs : E.strictRehash = true) (hr : ArgRehash E c w a c1 w1) : insertHint E hint a c w = .ub := by
  obtain ⟨h1, h2, hr⟩ := hr
  obtain ⟨it, hi⟩ := hr.insertNew E
  have hf := (forArg_new E hc h1 h2 (h2 ▸ hr.1)).trans hi
  unfold insertHint
  simp only [bind, Prog.bind, hf, Prog.get, hr.stale E hs hh it]
  rfl

theorem insertHintRangeTerminal_rehash {hint : GIter} {p : Spec.State.Pos} {fwd : Bool} {t : TI} {srcs : List (Src V)} {c c1 : Coll V} {w w1 : World}
    (hc : c.map.Inv E c.kind w) (hh : c.At E hint p) (hs : E.strictRehash = true) (hn : srcs ≠ []) (hr : Rehash E c w t c1 w1) :
    insertHintRangeTerminal E hint fwd t srcs c w = .ub := by
  obtain ⟨it, hi⟩ := hr.insertNew E
  have hf := (forT_new hc hr.1).trans hi
  unfold insertHintRangeTerminal
  rw [if_neg hn]
  simp only [bind, Prog.bind, hf, Prog.get, hr.stale E hs hh it]
  rfl

theorem insertHintRange_append {as bs : List (Arg V)} : ∀ {hint g : GIter} {c c1 : Coll V} {w w1 : World},
    insertHintRange E hint as c w = .ok g c1 w1 → insertHintRange E hint (as ++ bs) c w = insertHintRange E g bs c1 w1 := by
  induction as with
  | nil => intro hint g c c1 w w1 h; cases h; rfl
  | cons a as ih =>
    intro hint g c c1 w w1 h
    rw [insertHintRange] at h
    rw [List.cons_append, insertHintRange]
    simp only [bind, Prog.bind] at h ⊢
    cases e1 : forArg E a c w with
    | ok it c2 w2 =>
      simp only [e1] at h ⊢
      cases e2 : hintStep E hint it (E.tiTy a.dyn) a.src c2 w2 with
      | ok h' c3 w3 =>
        simp only [e2] at h ⊢
        exact ih h
      | exc => simp [e2] at h
      | ub => simp [e2] at h
    | exc => simp [e1] at h
    | ub => simp [e1] at h

theorem insertHintFrom_append {as bs : List (Item V)} : ∀ {hint g : GIter} {c c1 : Coll V} {w w1 : World},
    insertHintFrom E hint as c w = .ok g c1 w1 → insertHintFrom E hint (as ++ bs) c w = insertHintFrom E g bs c1 w1 := by
  induction as with
  | nil => intro hint g c c1 w w1 h; cases h; rfl
  | cons a as ih =>
    intro hint g c c1 w w1 h
    rw [insertHintFrom] at h
    rw [List.cons_append, insertHintFrom]
    simp only [bind, Prog.bind] at h ⊢
    cases e1 : forProto E a.id a.proto c w with
    | ok it c2 w2 =>
      simp only [e1] at h ⊢
      cases e2 : hintStep E hint it (E.tiTy a.id) (.copyExt a.val) c2 w2 with
      | ok h' c3 w3 =>
        simp only [e2] at h ⊢
        exact ih h
      | exc => simp [e2] at h
      | ub => simp [e2] at h
    | exc => simp [e1] at h
    | ub => simp [e1] at h

theorem insertHintRange_rehash {hint : GIter} {p : Spec.State.Pos} {as : List (Arg V)} {vs : List V} {c : Coll V} {w : World} (hc : c.Inv E w)
    (hh : c.At E hint p) (ha : ∀ a ∈ as, Arg.OK E a ∧ a.src.ext = true) (hv : as.map (fun a => a.src.val Vec.nil) = vs.map some)
    (hs : E.strictRehash = true) (hr : SeqRehash E hint as c w) : insertHintRange E hint as c w = .ub := by
  obtain @⟨as1, as2, a, _, c1, c2, _, w1, w2, g, h1, h2, h3, h4⟩ := hr
  have hr1 := insertHintRange_ends E as1 hint p (vs.take as1.length) c w hc hh (fun b hb => ha b (by simp [hb])) (by
    have := congrArg (List.take as1.length) hv
    simpa [List.map_take] using this)
  obtain ⟨⟨p', hadds, hat⟩, -⟩ := hr1.of_ok h1
  have hc1 := hadds.inv E hc
  obtain ⟨it, hi⟩ := h4.insertNew E
  rw [insertHintRange_append E h1, insertHintRange]
  have hf := (forArg_new E hc1.map h2 h3 (h3 ▸ h4.1)).trans hi
  simp only [bind, Prog.bind, hf, hintStep_stale E (h4.stale E hs hat it)]

theorem insertHintFrom_rehash {hint : GIter} {p : Spec.State.Pos} {xs : List (Item V)} {c : Coll V} {w : World} (hc : c.Inv E w)
    (hh : c.At E hint p) (hx : ∀ x ∈ xs, x.proto.kind = c.kind ∧ x.proto.ty = E.tiTy x.id)
    (hs : E.strictRehash = true) (hr : FromRehash E hint xs c w) : insertHintFrom E hint xs c w = .ub := by
  obtain @⟨as1, as2, a, _, c1, c2, _, w1, w2, g, h1, h4⟩ := hr
  have hr1 := insertHintFrom_ends E as1 hint p c w hc hh (fun b hb => hx b (by simp [hb]))
  obtain ⟨⟨p', hadds, hat⟩, -⟩ := hr1.of_ok h1
  have hc1 := hadds.inv E hc
  obtain ⟨it, hi⟩ := h4.insertNew E
  rw [insertHintFrom_append E h1, insertHintFrom]
  obtain ⟨k1, k2⟩ := hx a (by simp)
  have hf := (forProto_new E hc1.map (k1.trans (hadds.kind E).symm) k2 h4.1).trans hi
  simp only [bind, Prog.bind, hf, hintStep_stale E (h4.stale E hs hat it)]

theorem insertHintFromLocal_rehash {hint : GIter} {p : Spec.State.Pos} {id : TI} {proto : Seg V} {vals : List V} {c c1 : Coll V} {w w1 : World}
    (hc : c.map.Inv E c.kind w) (hh : c.At E hint p) (hk : proto.kind = c.kind) (ht : proto.ty = E.tiTy id) (hn : vals ≠ [])
    (hs : E.strictRehash = true) (hr : Rehash E c w id c1 w1) : insertHintFromLocal E hint id proto vals c w = .ub := by
  obtain ⟨it, hi⟩ := hr.insertNew E
  have hf := (forProto_new E hc hk ht hr.1).trans hi
  unfold insertHintFromLocal
  rw [if_neg hn]
  cases vals with
  | nil => exact absurd rfl hn
  | cons v vs =>
    simp only [bind, Prog.bind, hf, hintLoop, hintStep_stale E (hr.stale E hs hh it)]

end Coll
end PolyColl
