import Verif.Lemmas.WholeColl
import Verif.Lemmas.Traverse
/-! # Registration, construction from a range, inequality -/

namespace PolyColl
open Prog

namespace Coll
variable {V : Type} (E : Env V)

/-- `register_types<T...>()`. -/
theorem registerTypes_runs (ts : List TI) : ∀ (c : Coll V) (w : World), c.Inv E w →
    Runs (registerTypes E ts) c w
      (fun _ c' w' => c'.Inv E w' ∧ w.next ≤ w'.next ∧ c'.kind = c.kind ∧ Spec.State.Registered (ts.map E.tiTy) c.abs c'.abs ∧
        ∀ n ∈ c.map.nodes, n ∈ c'.map.nodes)
      (fun e c' w' => c'.Inv E w' ∧ w.next ≤ w'.next ∧ c'.kind = c.kind ∧ (∃ t ∈ ts, TMap.InsExc E (E.tiTy t) e) ∧
        (∃ us, us <+: ts.map E.tiTy ∧ Spec.State.Registered us c.abs c'.abs) ∧
        ∀ n ∈ c.map.nodes, n ∈ c'.map.nodes) := by
  have ens : ∀ {c c' : Coll V} {w w' : World} {t : Ty} {n : Node V}, c.Inv E w → Ens E c w t n c' w' →
      Spec.State.Registered [t] c.abs c'.abs := by
    intro c c' w w' t n hc h
    have ha := h.abs E hc.map
    refine ⟨fun u => ha.elemsOf (abs_nodup E hc.map) u, fun u => by simpa using ha.types u, fun hu => ?_, ha.nodup⟩
    rcases ha with ha | ha
    · exact ha.2
    · exact absurd (hu t (by simp)) ha.1
  have same : ∀ {c c' : Coll V}, TMap.SameNodes c.map c'.map → Spec.State.Registered [] c.abs c'.abs := by
    intro c c' h
    have : c'.abs = c.abs := by simp [Coll.abs, TMap.abs, h.nodes]
    rw [this]
    exact ⟨fun _ => rfl, by simp, fun _ => rfl, id⟩
  have trans : ∀ {us vs : List Ty} {a b d : Spec.State V}, Spec.State.Registered us a b → Spec.State.Registered vs b d →
      Spec.State.Registered (us ++ vs) a d := by
    intro us vs a b d h h'
    refine ⟨fun t => (h'.elems t).trans (h.elems t), fun t => ?_, fun ht => ?_, fun hn => h'.nodup (h.nodup hn)⟩
    · rw [h'.types, h.types, List.mem_append, or_assoc]
    · have e := h.same (fun t hu => ht t (by simp [hu]))
      rw [← e]
      exact h'.same (fun t hu => by rw [e]; exact ht t (by simp [hu]))
  induction ts with
  | nil => intro c w hc; exact ⟨hc, Nat.le_refl _, rfl, same (TMap.SameNodes.refl _), fun _ h => h⟩
  | cons t ts ih =>
    intro c w hc
    unfold registerTypes
    rw [runs_bind]
    refine (insertNew_runs E t c w hc.map).mono ?_ ?_
    · rintro it c1 w1 ⟨n, h1, -⟩
      have r1 := ens hc h1
      refine (ih c1 w1 (h1.good E (stable_inv E) hc)).mono ?_ ?_
      · rintro _ c2 w2 ⟨a1, a2, a3, a4, a5⟩
        exact ⟨a1, Nat.le_trans h1.next a2, a3.trans h1.kind, trans r1 a4, fun n hn => a5 n (h1.mem_old E hn)⟩
      · rintro e c2 w2 ⟨a1, a2, a3, ⟨u, hu, a4⟩, ⟨us, hus, a5⟩, a6⟩
        exact ⟨a1, Nat.le_trans h1.next a2, a3.trans h1.kind, ⟨u, by simp [hu], a4⟩,
          ⟨_, by simpa using hus, trans r1 a5⟩, fun n hn => a6 n (h1.mem_old E hn)⟩
    · rintro e c1 w1 h
      refine ⟨h.good E (stable_inv E) hc, h.next, h.kind, ⟨t, by simp, h.exc⟩, ?_, ?_⟩
      · rcases h.nodes with h | ⟨n, h⟩
        · exact ⟨[], by simp, same h⟩
        · exact ⟨[E.tiTy t], by simp, ens hc h⟩
      · rcases h.nodes with h | ⟨n, h⟩
        · intro n hn; rw [h.nodes]; exact hn
        · exact fun n hn => h.mem_old E hn

/-- `is_registered`. -/
theorem isRegistered_iff {c : Coll V} {w : World} (h : c.map.Inv E c.kind w) (t : TI) :
    c.isRegistered E t = true ↔ E.tiTy t ∈ c.abs.types := by
  unfold isRegistered
  have hf := TMap.findConst_found E h t
  constructor
  · intro hb
    obtain ⟨n, hr, hk⟩ := hf.ref E (by simpa using hb)
    have := mem_types hr.mem
    rwa [h.ty n hr.mem, hk] at this
  · intro hm
    obtain ⟨n, hn, ht⟩ := types_mem hm
    have : (c.map.findConst E t).node ≠ none := fun e => hf.notin E e n hn (by rw [← h.ty n hn, ht])
    simpa using this

theorem empty_good (k : Kind) (al : Alloc) {w : World} (hw : 0 < w.next) : (empty' k al : Coll V).Inv E w := none_inv E rfl rfl hw

/-- Construction from a range. -/
theorem fromRange_runs {X : Type} (k : Kind) (al : Alloc) (as : List (Arg V)) (vs : List V) (z : X) (w : World) (hw : 0 < w.next)
    (ha : ∀ a ∈ as, Arg.OK E a ∧ a.src.ext = true) (hv : as.map (fun a => a.src.val Vec.nil) = vs.map some) :
    Runs (fromRange E k al as : Prog X (Coll V)) z w
      (fun c z' w' => z' = z ∧ ∃ p', Adds E (empty' k al) w none (typed E as vs) c w' p')
      (fun e z' w' => z' = z ∧ ∃ c, SeqFail E (empty' k al) w none as vs e c w') := by
  unfold fromRange
  rw [runs_locally]
  exact (insertRange_runs E as vs (empty' k al) w (empty_good E k al hw) ha hv).mono (fun _ c w' h => ⟨by trivial, h⟩)
    (fun e c w' h => ⟨by trivial, c, h⟩)

/-- Construction from a range of elements of a terminal type. -/
theorem fromTerminal_runs {X : Type} (k : Kind) (al : Alloc) (fwd : Bool) (t : TI) (srcs : List (Src V)) (vs : List V) (z : X) (w : World)
    (hw : 0 < w.next) (hext : ∀ src ∈ srcs, src.ext = true) (hv : srcs.map (Src.val Vec.nil) = vs.map some) :
    Runs (fromTerminal E k al fwd t srcs : Prog X (Coll V)) z w
      (fun c z' w' => z' = z ∧ c.Inv E w' ∧ Spec.State.Appended (vs.map fun v => (E.tiTy t, v)) [] c.abs)
      (fun e z' w' => z' = z ∧ ∃ c, TermFail E (empty' k al) w (E.tiTy t) (fwd = true) (∃ src ∈ srcs, src.copies) vs.length e c w') := by
  have hc := empty_good E k al hw
  unfold fromTerminal
  rw [runs_locally]
  refine (insertRangeTerminal_runs E fwd t srcs vs (empty' k al) w hc hext hv).mono ?_ (fun e c w' h => ⟨by trivial, c, h⟩)
  rintro _ c w' (⟨rfl, rfl, rfl⟩ | ⟨hn, h⟩)
  · exact ⟨by trivial, hc, .nil _⟩
  · exact ⟨by trivial, h.inv E hc, h.grown E (fun t => ((empty' k al : Coll V).abs.elemsOf t).length) hc.map hn⟩

/-- `operator!=`. -/
theorem notEqual_runs {X : Type} (x y : Coll V) (w0 : World) (hx : x.map.Inv E x.kind w0) (hy : y.map.Inv E y.kind w0) (hk : x.kind = y.kind)
    (z : X) (w : World) :
    Runs (notEqual E x y : Prog X Bool) z w
      (fun b z' w' => z' = z ∧ Env.EqWorld x.size w w' ∧
        (b = false ↔ ∀ t, All2 (fun a b => E.eqv a b = true) (x.abs.elemsOf t) (y.abs.elemsOf t)) ∧
        (b = false → ∀ t, x.abs.elemsOf t ≠ [] → (E.traits t).eqComparable = true))
      (fun e z' w' => z' = z ∧ Env.EqWorld x.size w w' ∧ ∃ t, E.EqExc t e w w' ∧
        (x.abs.elemsOf t).length = (y.abs.elemsOf t).length ∧ x.abs.elemsOf t ≠ []) := by
  unfold notEqual
  simp only [runs_bind, runs_pure]
  refine (equal_runs E x y w0 hx hy hk z w).mono ?_ (fun _ _ _ h => h)
  rintro b z' w' ⟨h1, h2, h3, h4⟩
  exact ⟨h1, h2, by rw [← h3]; cases b <;> simp, fun h => h4 (by cases b <;> simp_all)⟩

export Spec.State (between)

theorem collect_between {src : Coll V} {w0 : World} (hs : src.Inv E w0) {sub : Ty → TI} (hsub : ∀ t, E.tiTy (sub t) = t) {first last : GIter}
    {p q : Spec.State.Pos} (hf : src.At E first p) (hl : src.At E last q) (hpq : src.abs.rank p ≤ src.abs.rank q) :
    ∃ items, src.collect E sub last first (src.size + 1) = some items ∧ typedItems E items = between src.abs p q ∧
      ∀ i ∈ items, i.proto.kind = src.kind ∧ i.proto.ty = E.tiTy i.id := by
  have hle := Spec.State.rank_le (hl.valid E hs.map)
  rw [← size_abs] at hle
  obtain ⟨items, h1, h2, h3⟩ := collect_at E hs sub hl (src.abs.rank q - src.abs.rank p) first p (src.size + 1) hf (by omega) (by omega)
  refine ⟨items, h1, ?_, fun i hi => ⟨(h3 i hi).1, by rw [(h3 i hi).2, hsub]⟩⟩
  have := congrArg (List.map fun x : TI × V => (E.tiTy x.1, x.2)) h2
  simp only [List.map_map, Function.comp_def, hsub] at this
  unfold typedItems between
  simpa using this

/-- `insert(first,last)` with global iterators of another collection. -/
theorem insertColl_runs {sub : Ty → TI} (hsub : ∀ t, E.tiTy (sub t) = t) (src : Coll V) (w0 : World) (hs : src.Inv E w0) {first last : GIter}
    {p q : Spec.State.Pos} (hf : src.At E first p) (hl : src.At E last q) (hpq : src.abs.rank p ≤ src.abs.rank q)
    (c : Coll V) (w : World) (hc : c.Inv E w) (hk : src.kind = c.kind) :
    Runs (insertColl E sub src first last) c w
      (fun _ c' w' => ∃ p', Adds E c w none (between src.abs p q) c' w' p') (FromFail E c w none (between src.abs p q)) := by
  obtain ⟨items, h1, h2, h3⟩ := collect_between E hs hsub hf hl hpq
  unfold insertColl
  rw [runs_bind, runs_ofOption]
  refine ⟨items, h1, ?_⟩
  rw [← h2]
  exact insertFrom_runs E items c w hc (fun i hi => ⟨(h3 i hi).1.trans hk, (h3 i hi).2⟩)

/-- `insert(hint,first,last)` with global iterators of another collection. -/
theorem insertHintColl_runs {sub : Ty → TI} (hsub : ∀ t, E.tiTy (sub t) = t) (src : Coll V) (w0 : World) (hs : src.Inv E w0) {first last : GIter}
    {p q : Spec.State.Pos} (hf : src.At E first p) (hl : src.At E last q) (hpq : src.abs.rank p ≤ src.abs.rank q)
    (hint : GIter) (h : Spec.State.Pos)
    (c : Coll V) (w : World) (hc : c.Inv E w) (hk : src.kind = c.kind) (hh : c.At E hint h) (hok : HintOK E c ((between src.abs p q).map Prod.fst)) :
    Runs (insertHintColl E sub hint src first last) c w
      (fun g c' w' => ∃ h', Adds E c w h (between src.abs p q) c' w' h' ∧ c'.At E g h') (FromFail E c w h (between src.abs p q)) := by
  obtain ⟨items, h1, h2, h3⟩ := collect_between E hs hsub hf hl hpq
  unfold insertHintColl
  rw [runs_bind, runs_ofOption]
  refine ⟨items, h1, ?_⟩
  rw [← h2] at hok ⊢
  refine insertHintFrom_runs E items hint h c w hc hh ?_ (fun i hi => ⟨(h3 i hi).1.trans hk, (h3 i hi).2⟩)
  simpa [typedItems, Function.comp_def] using hok

/-- The elements `a`…`b` of the segment of type `t`. -/
def slice (s : Spec.State V) (t : Ty) (a b : Nat) : List V := ((s.elemsOf t).drop a).take (b - a)

theorem collectLocal_at {src : Coll V} {w0 : World} (hs : src.Inv E w0) {first last : LIter} {t : Ty} {a b : Nat}
    (hf : src.LAtB E first t a) (hl : src.LAtB E last t b) (hab : a ≤ b) :
    ∃ s, src.collectLocal E first last = some (s, slice src.abs t a b) ∧ s.kind = src.kind ∧ s.ty = t := by
  obtain ⟨n, h1, h2, h3, h4⟩ := hf
  obtain ⟨m, g1, g2, g3, g4⟩ := hl
  have e : m = n := eq_of_nodup (hs.map.nodup_ty E) g1.mem h1.mem (g2.trans h2.symm)
  subst e
  refine ⟨m.seg, ?_, hs.map.kind m h1.mem, h2⟩
  unfold collectLocal
  rw [h1.node? E hs.map.ids]
  simp only [h4, g4]
  rw [localWalk_base E (hs.mem.segs m h1.mem).core (b - a) a b _ (by omega) g3 (by omega)]
  have := TMap.abs_get E hs.map h1.mem
  rw [h2] at this
  simp [slice, Spec.State.elemsOf, Coll.abs, this]

/-- `insert(first,last)` with local base iterators of another collection. -/
theorem insertLocalColl_runs {sub : Ty → TI} (hsub : ∀ t, E.tiTy (sub t) = t) (src : Coll V) (w0 : World) (hs : src.Inv E w0) {first last : LIter}
    {t : Ty} {a b : Nat} (hf : src.LAtB E first t a) (hl : src.LAtB E last t b) (hab : a ≤ b)
    (c : Coll V) (w : World) (hc : c.Inv E w) (hk : src.kind = c.kind) :
    Runs (insertLocalColl E sub src first last) c w
      (fun _ c' w' => ∃ p', Adds E c w none ((slice src.abs t a b).map fun v => (t, v)) c' w' p')
      (FromFail E c w none ((slice src.abs t a b).map fun v => (t, v))) := by
  obtain ⟨s, h1, h2, h3⟩ := collectLocal_at E hs hf hl hab
  unfold insertLocalColl
  rw [runs_bind, runs_ofOption]
  refine ⟨_, h1, ?_⟩
  have := insertFromLocal_runs E (sub s.ty) s (slice src.abs t a b) c w hc (h2.trans hk) (by rw [hsub])
  rw [hsub, h3] at this
  exact h3 ▸ this

/-- `insert(hint,first,last)` with local base iterators of another collection. -/
theorem insertHintLocalColl_runs {sub : Ty → TI} (hsub : ∀ t, E.tiTy (sub t) = t) (src : Coll V) (w0 : World) (hs : src.Inv E w0) {first last : LIter}
    {t : Ty} {a b : Nat} (hf : src.LAtB E first t a) (hl : src.LAtB E last t b) (hab : a ≤ b)
    (hint : GIter) (h : Spec.State.Pos)
    (c : Coll V) (w : World) (hc : c.Inv E w) (hk : src.kind = c.kind) (hh : c.At E hint h) (hok : HintOK E c [t]) :
    Runs (insertHintLocalColl E sub hint src first last) c w
      (fun g c' w' => ∃ h', Adds E c w h ((slice src.abs t a b).map fun v => (t, v)) c' w' h' ∧ c'.At E g h')
      (FromFail E c w h ((slice src.abs t a b).map fun v => (t, v))) := by
  obtain ⟨s, h1, h2, h3⟩ := collectLocal_at E hs hf hl hab
  unfold insertHintLocalColl
  rw [runs_bind, runs_ofOption]
  refine ⟨_, h1, ?_⟩
  have := insertHintFromLocal_runs E hint h (sub s.ty) s (slice src.abs t a b) c w hc hh (by rw [hsub, h3]; exact hok) (h2.trans hk) (by rw [hsub])
  rw [hsub, h3] at this
  exact h3 ▸ this

/-- Construction from global iterators of another collection. -/
theorem fromColl_runs {X : Type} {sub : Ty → TI} (hsub : ∀ t, E.tiTy (sub t) = t) (src : Coll V) (w0 : World) (hs : src.Inv E w0)
    {first last : GIter} {p q : Spec.State.Pos} (hf : src.At E first p) (hl : src.At E last q) (hpq : src.abs.rank p ≤ src.abs.rank q)
    (al : Alloc) (z : X) (w : World) (hw : 0 < w.next) :
    Runs (fromColl E sub src.kind al src first last : Prog X (Coll V)) z w
      (fun c z' w' => z' = z ∧ ∃ p', Adds E (empty' src.kind al) w none (between src.abs p q) c w' p')
      (fun e z' w' => z' = z ∧ ∃ c, FromFail E (empty' src.kind al) w none (between src.abs p q) e c w') := by
  unfold fromColl
  rw [runs_locally]
  exact (insertColl_runs E hsub src w0 hs hf hl hpq (empty' src.kind al) w (empty_good E _ al hw) rfl).mono (fun _ c w' h => ⟨by trivial, h⟩)
    (fun e c w' h => ⟨by trivial, c, h⟩)

/-- Construction from local base iterators of another collection. -/
theorem fromLocalColl_runs {X : Type} {sub : Ty → TI} (hsub : ∀ t, E.tiTy (sub t) = t) (src : Coll V) (w0 : World) (hs : src.Inv E w0)
    {first last : LIter} {t : Ty} {a b : Nat} (hf : src.LAtB E first t a) (hl : src.LAtB E last t b) (hab : a ≤ b)
    (al : Alloc) (z : X) (w : World) (hw : 0 < w.next) :
    Runs (fromLocalColl E sub src.kind al src first last : Prog X (Coll V)) z w
      (fun c z' w' => z' = z ∧ ∃ p', Adds E (empty' src.kind al) w none ((slice src.abs t a b).map fun v => (t, v)) c w' p')
      (fun e z' w' => z' = z ∧ ∃ c, FromFail E (empty' src.kind al) w none ((slice src.abs t a b).map fun v => (t, v)) e c w') := by
  unfold fromLocalColl
  rw [runs_locally]
  exact (insertLocalColl_runs E hsub src w0 hs hf hl hab (empty' src.kind al) w (empty_good E _ al hw) rfl).mono
    (fun _ c w' h => ⟨by trivial, h⟩) (fun e c w' h => ⟨by trivial, c, h⟩)

end Coll
end PolyColl
