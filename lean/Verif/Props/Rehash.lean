import Verif.Props.SampleRange
import Verif.Lemmas.Lax
import Verif.Lemmas.RehashSpares
import Verif.Props.Exceptions
import Verif.Props.Iterators
/-!
# Hints and rehashing

According to the standard, rehashing a hash map invalidates its iterators (`Env.strictRehash`); a
hint is, in part, such an iterator.  Here is exactly when hinted insertion of elements whose types are
not registered yet is defined, and that it is as documented then.  Also, that is all there is to
`strictRehash`: it makes programs undefined but changes no results.
-/

namespace PolyColl.Props
open PolyColl Prog Coll
variable {V : Type} {E : Env V} {k : Kind}

/-- The type is not registered, registering it would succeed and change the number of buckets of the map, and
this invalidates iterators of the map. -/
def Rehashes (E : Env V) (c : Coll V) (w : World) (t : TI) : Prop :=
  E.strictRehash = true ∧ E.tiTy t ∉ c.abs.types ∧ ∃ c1 w1, registerTypes E [t] c w = .ok () c1 w1 ∧ c1.map.buckets ≠ c.map.buckets

/-- The same for the type of an object to insert, if `insert` registers it. -/
def RehashesFor (E : Env V) (c : Coll V) (w : World) (a : Arg V) : Prop :=
  a.acc = true ∧ E.tiTy a.dyn = E.tiTy a.stat ∧ Rehashes E c w a.stat

theorem rehashes_iff {c : Coll V} {w : World} {t : TI} : Rehashes E c w t ↔ E.strictRehash = true ∧ ∃ c1 w1, Rehash E c w t c1 w1 := by
  constructor
  · rintro ⟨h1, h2, c1, w1, h3, h4⟩
    refine ⟨h1, c1, w1, h2, h3, h4, ?_⟩
    have hr := insertNew_rehash (E := E) t c w
    unfold Leaves at hr
    have h3' : Prog.bind (insertNew E t) (fun _ => Prog.pure ()) c w = .ok () c1 w1 := h3
    unfold Prog.bind at h3'
    cases hi : insertNew E t c w with
    | ok i c' w' =>
      rw [hi] at h3' hr
      cases h3'
      exact hr.trans (if_neg h4)
    | exc e c' w' => rw [hi] at h3'; cases h3'
    | ub => rw [hi] at h3'; cases h3'
  · rintro ⟨h1, c1, w1, h2, h3, h4, -⟩
    exact ⟨h1, h2, c1, w1, h3, h4⟩

theorem rehashesFor_iff {c : Coll V} {w : World} {a : Arg V} :
    RehashesFor E c w a ↔ E.strictRehash = true ∧ ∃ c1 w1, ArgRehash E c w a c1 w1 := by
  unfold RehashesFor ArgRehash
  rw [rehashes_iff]
  exact ⟨fun ⟨a, b, c, d, e, f⟩ => ⟨c, d, e, a, b, f⟩, fun ⟨c, d, e, a, b, f⟩ => ⟨a, b, c, d, e, f⟩⟩

/-- **C06** for `emplace_hint`, without restrictions: the behaviour is undefined if creating the segment for the
new element rehashes the map; otherwise everything is as documented. -/
theorem C06_emplace_hint {c : Coll V} {w : World} (h : c.Reachable E k w) {hint : GIter} {p : Spec.State.Pos} (hh : c.At E hint p)
    (t : TI) {src : Src V} {v : V} (hs : src.Of v) :
    (Rehashes E c w t → emplaceHint E hint t src c w = .ub) ∧
    (¬ Rehashes E c w t → Runs (emplaceHint E hint t src) c w
      (fun it c' w' => c'.Reachable E k w' ∧
        c.abs.Put (E.tiTy t) (c.abs.hintPos (E.tiTy t) p) [v] c'.abs ∧
        c'.At E it (some (E.tiTy t, c.abs.hintPos (E.tiTy t) p)) ∧ c'.map.deref it.segpos = some v)
      (fun e _ _ => ExcFrom E (E.tiTy t) src.copies (E.TooMany (E.tiTy t) ((c.abs.elemsOf (E.tiTy t)).length + 1)) e)) := by
  rw [rehashes_iff]
  refine ⟨fun ⟨h1, c1, w1, h2⟩ => emplaceHint_rehash E h.map hh h1 h2, fun hn => ?_⟩
  refine (h.ends (.emplaceHint hint t src) ⟨⟨v, srcFor hs⟩, p, hh⟩ rfl
    (emplaceHint_ends E hint p t src v c w h.inv (srcFor hs) hh) hn).mono ?_ (fun e c' w' h' => h'.exc E h.map)
  rintro it c' w' ⟨hr, hi, ha, -⟩
  have hp := hi.put E h.map
  exact ⟨hr, hp, ha, deref_pos hr.inv ha (hp.at h.nodup (hi.le E h.map))⟩

/-- Registering a second type rehashes the map of `Sample.w13c1`, so that its beginning cannot be used as a hint; this does not
rehash the map of `Sample.w11c1`, though the standard would allow it, and there `emplace_hint` goes well. -/
example : Sample.w13c1.Reachable Sample.E0 .split ⟨10, 10⟩ ∧ Rehashes Sample.E0 Sample.w13c1 ⟨10, 10⟩ 4 ∧
    Sample.w13c1.At Sample.E0 ⟨⟨some 4, 1⟩, ⟨none, 1⟩, ⟨9, 0⟩⟩ (some (0, 0)) ∧
    Sample.w11c1.Reachable Sample.E5 .split ⟨10, 10⟩ ∧ Sample.E5.strictRehash = true ∧ ¬ Rehashes Sample.E5 Sample.w11c1 ⟨10, 10⟩ 4 ∧
    Sample.w11c1.At Sample.E5 ⟨⟨some 4, 1⟩, ⟨none, 1⟩, ⟨9, 0⟩⟩ (some (0, 0)) ∧
    ∃ it c' w', emplaceHint Sample.E5 ⟨⟨some 4, 1⟩, ⟨none, 1⟩, ⟨9, 0⟩⟩ 4 (.emplaced 6) Sample.w11c1 ⟨10, 10⟩ = .ok it c' w' ∧
      c'.abs = [(2, [6]), (0, [5])] := by
  refine ⟨Sample.w13reach.left, ⟨rfl, by decide, _, _, rfl, by decide⟩, ⟨rfl, rfl, rfl, _, .head _, rfl, rfl, by decide, rfl⟩,
    Sample.w11reach.left, rfl, ?_, ⟨rfl, rfl, rfl, _, .head _, rfl, rfl, by decide, rfl⟩, _, _, _, rfl, rfl⟩
  rintro ⟨-, -, c1, w1, h, hn⟩
  cases h
  exact hn rfl

/-- **C06** for `insert(hint,x)`, without restrictions. -/
theorem C06_insert_hint {c : Coll V} {w : World} (h : c.Reachable E k w) {hint : GIter} {p : Spec.State.Pos} (hh : c.At E hint p)
    (a : Arg V) (ha : Coll.Arg.OK E a) {v : V} (hs : a.src.Of v) :
    (RehashesFor E c w a → insertHint E hint a c w = .ub) ∧
    (¬ RehashesFor E c w a → Runs (insertHint E hint a) c w
      (fun it c' w' => c'.Reachable E k w' ∧
        c.abs.Put (E.tiTy a.dyn) (c.abs.hintPos (E.tiTy a.dyn) p) [v] c'.abs ∧
        c'.At E it (some (E.tiTy a.dyn, c.abs.hintPos (E.tiTy a.dyn) p)) ∧ c'.map.deref it.segpos = some v)
      (fun e _ _ => ArgExc E c a e)) := by
  rw [rehashesFor_iff]
  refine ⟨fun ⟨h1, c1, w1, h2⟩ => insertHint_rehash E h.map hh h1 h2, fun hn => ?_⟩
  refine (h.ends (.insertHint hint a) ⟨ha, ⟨v, srcFor hs⟩, p, hh⟩ rfl
    (insertHint_ends E hint p a v ha c w h.inv (srcFor hs) hh) hn).mono ?_ (fun e c' w' h' => h'.exc E h.map)
  rintro it c' w' ⟨hr, hi, ha⟩
  have hp := hi.put E h.map
  exact ⟨hr, hp, ha, deref_pos hr.inv ha (hp.at h.nodup (hi.le E h.map))⟩

/-- An object of a new type for each of the collections above: undefined here, inserted there. -/
example : RehashesFor Sample.E0 Sample.w13c1 ⟨10, 10⟩ ⟨4, 4, true, true, .emplaced 6⟩ ∧ Coll.Arg.OK Sample.E0 ⟨4, 4, true, true, .emplaced 6⟩ ∧
    insertHint Sample.E0 ⟨⟨some 4, 1⟩, ⟨none, 1⟩, ⟨9, 0⟩⟩ ⟨4, 4, true, true, .emplaced 6⟩ Sample.w13c1 ⟨10, 10⟩ = .ub ∧
    ∃ it c' w', insertHint Sample.E5 ⟨⟨some 4, 1⟩, ⟨none, 1⟩, ⟨9, 0⟩⟩ ⟨4, 4, true, true, .emplaced 6⟩ Sample.w11c1 ⟨10, 10⟩ = .ok it c' w' ∧
      c'.abs = [(2, [6]), (0, [5])] :=
  ⟨⟨rfl, rfl, rfl, by decide, _, _, rfl, by decide⟩, by simp [Coll.Arg.OK], rfl, _, _, _, rfl, rfl⟩

/-- **C11** without restrictions: the behaviour of `insert(hint,first,last)` is undefined if the insertion of an element, after
those before it, creates a segment and this rehashes the map; otherwise everything is as documented. -/
theorem C11_insert_hint_range {c : Coll V} {w : World} (h : c.Reachable E k w) {hint : GIter} {p : Spec.State.Pos} (hh : c.At E hint p)
    (as : List (Arg V)) (vs : List V) (hv : ArgsOf as vs)
    (ha : ∀ a ∈ as, Coll.Arg.OK E a ∧ (E.tiTy a.dyn ∈ c.abs.types ∨ a.acc = true ∧ E.tiTy a.dyn = E.tiTy a.stat)) :
    let R := ∃ as1 a as2 g c1 w1, as = as1 ++ a :: as2 ∧ insertHintRange E hint as1 c w = .ok g c1 w1 ∧ RehashesFor E c1 w1 a
    (R → insertHintRange E hint as c w = .ub) ∧
    (¬ R → Runs (insertHintRange E hint as) c w
      (fun g c' w' => c'.Reachable E k w' ∧ c.abs.Grown (fun t => c.abs.hintPos t p) (tagged E as vs) c'.abs ∧ ∃ p', c'.At E g p')
      (fun e _ _ => ∃ a ∈ as,
        ExcFrom E (E.tiTy a.dyn) a.src.copies (E.TooMany (E.tiTy a.dyn) ((c.abs.elemsOf (E.tiTy a.dyn)).length + as.length)) e)) := by
  obtain ⟨h1, h2, -⟩ := hv.spec
  have hok : ∀ a ∈ as, Coll.Arg.OK E a ∧ a.src.ext = true := fun a hm => ⟨(ha a hm).1, h1 a hm⟩
  refine ⟨?_, fun hn => ?_⟩
  · rintro ⟨as1, a, as2, g, c1, w1, rfl, h3, h4⟩
    obtain ⟨h5, c2, w2, h6⟩ := rehashesFor_iff.1 h4
    exact insertHintRange_rehash E h.inv hh hok h2 h5 (.mk h3 h6)
  refine ((h.ends (.insertHintRange hint as) ⟨⟨p, hh⟩, hok⟩ rfl
    (insertHintRange_ends E as hint p vs c w h.inv hh hok h2) ?_)).mono ?_ ?_
  · rintro ⟨u1, @⟨as1, as2, a, _, c1, c2, _, w1, w2, g, u2, u3⟩⟩
    exact hn ⟨as1, a, as2, g, c1, w1, rfl, u2, rehashesFor_iff.2 ⟨u1, _, _, u3⟩⟩
  · rintro g c' w' ⟨hr, ⟨p', hi, hat⟩, -⟩
    exact ⟨hr, typed_eq as vs ▸ hi.grown E h.inv, p', hat⟩
  · intro e c' w' h'
    obtain ⟨a, hm, h' | ⟨-, h1, h2⟩⟩ := h'.exc E h.inv
    · exact ⟨a, hm, h'⟩
    · exact absurd (ha a hm).2 (fun h => h.elim h1 h2)

/-- For examples: the contents after a successful run. -/
theorem leaves_abs {α : Type} {p : Prog (Coll V) α} {c : Coll V} {w : World} {a : Spec.State V}
    (h : (match p c w with | .ok _ c' _ => some c'.abs | _ => none) = some a) : ∃ it c' w', p c w = .ok it c' w' ∧ c'.abs = a := by
  cases hp : p c w with
  | ok it c' w' => rw [hp] at h; exact ⟨it, c', w', rfl, Option.some.inj h⟩
  | exc e c' w' => rw [hp] at h; cases h
  | ub => rw [hp] at h; cases h

/-- The second element has a registered type, the first does not: undefined at the first, or both are inserted. -/
example : (∃ as1 a as2 g c1 w1, [⟨4, 4, true, true, .emplaced 6⟩, ⟨0, 0, true, true, .emplaced 4⟩] = as1 ++ a :: as2 ∧
      insertHintRange Sample.E0 ⟨⟨some 4, 1⟩, ⟨none, 1⟩, ⟨9, 0⟩⟩ as1 Sample.w13c1 ⟨10, 10⟩ = .ok g c1 w1 ∧ RehashesFor Sample.E0 c1 w1 a) ∧
    ∃ it c' w', insertHintRange Sample.E5 ⟨⟨some 4, 1⟩, ⟨none, 1⟩, ⟨9, 0⟩⟩
        [⟨4, 4, true, true, .emplaced 6⟩, ⟨0, 0, true, true, .emplaced 4⟩] Sample.w11c1 ⟨10, 10⟩ = .ok it c' w' ∧
      c'.abs = [(2, [6]), (0, [4, 5])] :=
  ⟨⟨[], _, [_], _, _, _, rfl, rfl, rfl, rfl, rfl, by decide, _, _, rfl, by decide⟩, leaves_abs (by decide +kernel)⟩

/-- **C11** for elements of a type known exactly at compile time, without restrictions. -/
theorem C11_insert_hint_range_terminal {c : Coll V} {w : World} (h : c.Reachable E k w) {hint : GIter} {p : Spec.State.Pos} (hh : c.At E hint p)
    (fwd : Bool) (t : TI) (srcs : List (Src V)) (vs : List V) (hv : SrcsOf srcs vs) :
    (srcs ≠ [] ∧ Rehashes E c w t → insertHintRangeTerminal E hint fwd t srcs c w = .ub) ∧
    (¬ (srcs ≠ [] ∧ Rehashes E c w t) → Runs (insertHintRangeTerminal E hint fwd t srcs) c w
      (fun _ c' w' => c'.Reachable E k w' ∧ (vs = [] ∧ c' = c ∨ vs ≠ [] ∧ c.abs.Put (E.tiTy t) (c.abs.hintPos (E.tiTy t) p) vs c'.abs))
      (fun e _ _ => vs ≠ [] ∧ ExcFrom E (E.tiTy t) (∃ src ∈ srcs, src.copies) (E.TooMany (E.tiTy t) ((c.abs.elemsOf (E.tiTy t)).length + vs.length)) e)) := by
  obtain ⟨h1, h2, h3⟩ := hv.spec
  rw [rehashes_iff]
  refine ⟨fun ⟨h0, h4, c1, w1, h5⟩ => insertHintRangeTerminal_rehash E h.map hh h4 h0 h5, fun hn => ?_⟩
  cases srcs with
  | nil =>
    have : vs = [] := by simpa using h3.symm
    subst this
    exact ⟨h, Or.inl ⟨rfl, rfl⟩⟩
  | cons s srcs =>
    have hne : 1 ≤ vs.length := by rw [← h3]; simp
    have he := insertHintRangeTerminal_ends E hint p fwd t _ vs c w h.inv hh h1 h2
    refine ((he.runs (fun ⟨u1, u2, u3⟩ => hn ⟨u2, u1, u3⟩))).withEq.mono ?_ ?_
    · rintro _ c' w' ⟨hq, heq⟩
      have hr := h.stepApt (.insertHintRangeTerminal hint fwd t (s :: srcs)) ⟨⟨p, hh⟩, h1⟩ heq
      rcases hq with ⟨a, b, -⟩ | ⟨a, b⟩
      · exact ⟨hr, Or.inl ⟨a, b⟩⟩
      · exact ⟨hr, Or.inr ⟨a, b.put E h.map⟩⟩
    · intro e c' w' h'
      exact ⟨fun e => by simp [e] at hne, h'.1.exc E h.map hne⟩

/-- A vector of a new type into the collections above. -/
example : insertHintRangeTerminal Sample.E0 ⟨⟨some 4, 1⟩, ⟨none, 1⟩, ⟨9, 0⟩⟩ true 4 [.copyExt 6, .copyExt 7] Sample.w13c1 ⟨10, 10⟩ = .ub ∧
    ∃ it c' w', insertHintRangeTerminal Sample.E5 ⟨⟨some 4, 1⟩, ⟨none, 1⟩, ⟨9, 0⟩⟩ true 4 [.copyExt 6, .copyExt 7] Sample.w11c1 ⟨10, 10⟩ =
      .ok it c' w' ∧ c'.abs = [(2, [6, 7]), (0, [5])] :=
  ⟨rfl, leaves_abs (by decide +kernel)⟩

/-- **C11** for elements of one segment of another collection, without restrictions. -/
theorem C11_insert_hint_local {c d : Coll V} {w : World} (h : Reachable2 E k c d w) {sub : Ty → TI} (hsub : ∀ t, E.tiTy (sub t) = t)
    {first last : LIter} {t : Ty} {a b : Nat} (hf : d.LAtB E first t a) (hl : d.LAtB E last t b) (hab : a ≤ b)
    {hint : GIter} {r : Spec.State.Pos} (hh : c.At E hint r) :
    (slice d.abs t a b ≠ [] ∧ Rehashes E c w (sub t) → insertHintLocalColl E sub hint d first last c w = .ub) ∧
    (¬ (slice d.abs t a b ≠ [] ∧ Rehashes E c w (sub t)) → Runs (insertHintLocalColl E sub hint d first last) c w
      (fun g c' _ => c.abs.Grown (fun t => c.abs.hintPos t r) ((slice d.abs t a b).map fun v => (t, v)) c'.abs ∧ ∃ r', c'.At E g r')
      (fun e _ _ => ExcFrom E t True (E.TooMany t ((c.abs.elemsOf t).length + (slice d.abs t a b).length)) e)) := by
  have hkd := h.right.kind.trans h.left.kind.symm
  rw [rehashes_iff]
  refine ⟨?_, fun hn => ?_⟩
  · rintro ⟨h0, h4, c1, w1, h5⟩
    obtain ⟨s, s1, s2, s3⟩ := collectLocal_at E h.right.inv hf hl hab
    unfold insertHintLocalColl
    rw [s1]
    exact insertHintFromLocal_rehash E h.left.map hh (s2.trans hkd) (by rw [hsub]) h0 h4 (by rw [s3]; exact h5)
  refine ((insertHintLocalColl_ends E hsub d w h.right.inv hf hl hab hint r c w h.left.inv hkd hh).runs
    (fun ⟨u1, u2, u3⟩ => hn ⟨u2, u1, u3⟩)).mono ?_ ?_
  · rintro g c' w' ⟨p', hi, hat⟩
    exact ⟨hi.grown E h.left.inv, p', hat⟩
  · intro e c' w' h'
    obtain ⟨u, hu, h'⟩ := h'.exc E h.left.inv
    simp only [List.map_map, List.mem_map, Function.comp] at hu
    obtain ⟨_, -, rfl⟩ := hu
    simpa using h'

example (k : Kind) := C11_insert_hint_local (Sample.reach01 k) (Sample.sub_ty _) (Sample.lbase1_at k (n := 0) (by decide)) (Sample.lbase1_at k (n := 2) (by decide))
  (by decide) (Sample.iter_two k)

/-- **C11** for elements of another collection, without restrictions: the range consists of `items`; the behaviour is undefined if
after the insertion of those before it one of them rehashes the map, and as documented otherwise. -/
theorem C11_insert_hint_collection {c d : Coll V} {w : World} (h : Reachable2 E k c d w) {sub : Ty → TI} (hsub : ∀ t, E.tiTy (sub t) = t)
    {first last : GIter} {p q : Spec.State.Pos} (hf : d.At E first p) (hl : d.At E last q) (hpq : d.abs.rank p ≤ d.abs.rank q)
    {hint : GIter} {r : Spec.State.Pos} (hh : c.At E hint r) :
    ∃ items : List (Item V), items.map (fun x => (E.tiTy x.id, x.val)) = between d.abs p q ∧
      let R := ∃ xs1 x xs2 g c1 w1, items = xs1 ++ x :: xs2 ∧ insertHintFrom E hint xs1 c w = .ok g c1 w1 ∧ Rehashes E c1 w1 x.id
      (R → insertHintColl E sub hint d first last c w = .ub) ∧
      (¬ R → Runs (insertHintColl E sub hint d first last) c w
        (fun g c' _ => c.abs.Grown (fun t => c.abs.hintPos t r) (between d.abs p q) c'.abs ∧ ∃ r', c'.At E g r')
        (fun e _ _ => ∃ t ∈ (between d.abs p q).map Prod.fst,
          ExcFrom E t True (E.TooMany t ((c.abs.elemsOf t).length + (between d.abs p q).length)) e)) := by
  have hkd := h.right.kind.trans h.left.kind.symm
  obtain ⟨items, h1, h2, h3⟩ := collect_between E h.right.inv hsub hf hl hpq
  obtain ⟨items', e1, -, he⟩ := insertHintColl_ends E hsub d w h.right.inv hf hl hpq hint r c w h.left.inv hkd hh
  obtain rfl : items = items' := Option.some.inj (h1.symm.trans e1)
  refine ⟨items, h2, ?_, fun hn => ?_⟩
  · rintro ⟨xs1, x, xs2, g, c1, w1, rfl, h4, h5⟩
    obtain ⟨h6, c2, w2, h7⟩ := rehashes_iff.1 h5
    have := insertHintFrom_rehash E h.left.inv hh (fun i hi => ⟨(h3 i hi).1.trans hkd, (h3 i hi).2⟩) h6 (.mk h4 h7)
    unfold insertHintColl
    simp only [bind, Prog.bind, h1, Prog.ofOption]
    exact this
  refine (he.runs ?_).mono ?_ ?_
  · rintro ⟨u1, @⟨xs1, xs2, x, _, c1, c2, _, w1, w2, g, u2, u3⟩⟩
    exact hn ⟨xs1, x, xs2, g, c1, w1, rfl, u2, rehashes_iff.2 ⟨u1, _, _, u3⟩⟩
  · rintro g c' w' ⟨⟨p', hi, hat⟩, -⟩
    exact ⟨hi.grown E h.left.inv, p', hat⟩
  · intro e c' w' h'
    exact h'.exc E h.left.inv

/-- The element of type 3 of `c1`, which rehashes the map of `c0`, and those of type 0, which do not. -/
example (k : Kind) : ∃ hint first last l1 l2, (Sample.c0 k).At Sample.E0 hint (some (0, 1)) ∧
    Reachable2 Sample.E0 k (Sample.c0 k) (Sample.c1 k) (Sample.w0 k) ∧ (∀ t, Sample.E0.tiTy (Sample.sub t) = t) ∧
    (Sample.c1 k).LAtB Sample.E0 l1 3 0 ∧ (Sample.c1 k).LAtB Sample.E0 l2 3 1 ∧
    slice (Sample.c1 k).abs 3 0 1 = [6] ∧ Rehashes Sample.E0 (Sample.c0 k) (Sample.w0 k) (Sample.sub 3) ∧
    ¬ Rehashes Sample.E0 (Sample.c0 k) (Sample.w0 k) (Sample.sub 0) ∧
    (Sample.c1 k).At Sample.E0 first (some (3, 0)) ∧ (Sample.c1 k).At Sample.E0 last none ∧
    (Sample.c1 k).abs.rank (some (3, 0)) ≤ (Sample.c1 k).abs.rank none ∧
    between (Sample.c1 k).abs (some (3, 0)) none = [(3, 6), (0, 5), (0, 4)] := by
  obtain ⟨hint, hh⟩ := exists_at (Sample.reach0 k).inv (p := some (0, 1)) (by rw [Sample.abs0]; exact ⟨_, rfl, by decide⟩)
  obtain ⟨first, hf⟩ := exists_at (Sample.reach1 k).inv (p := some (3, 0)) (by rw [Sample.abs1]; exact ⟨_, rfl, by decide⟩)
  obtain ⟨last, hl⟩ := exists_at (Sample.reach1 k).inv (p := none) (by rw [Sample.abs1]; trivial)
  obtain ⟨l1, h1⟩ := exists_latB (Sample.reach1 k).inv (t := 3) (n := 0) (by rw [Sample.abs1]; decide) (by rw [Sample.abs1]; decide)
  obtain ⟨l2, h2⟩ := exists_latB (Sample.reach1 k).inv (t := 3) (n := 1) (by rw [Sample.abs1]; decide) (by rw [Sample.abs1]; decide)
  refine ⟨hint, first, last, l1, l2, hh, Sample.reach01 k, Sample.sub_ty _, h1, h2, by rw [Sample.abs1]; decide, ?_, ?_, hf, hl,
    by rw [Sample.abs1]; decide, by rw [Sample.abs1]; decide⟩
  · refine ⟨rfl, by rw [Sample.abs0]; decide, ?_⟩
    cases k <;> exact ⟨_, _, rfl, by decide⟩
  · rintro ⟨-, h, -⟩
    exact h (by rw [Sample.abs0]; decide)

/-- **C15** for insertion with a hint, the type not being registered yet: if it throws, the collection is as before.
Missing: as for `C15_strong_guarantee_partial`. -/
theorem C15_hints_partial {c : Coll V} {w : World} (h : c.Reachable E .packed w) {op : COp V} {t : Ty}
    (hop : (∃ hint u src, op = .emplaceHint hint u src ∧ t = E.tiTy u) ∨ ∃ hint a, op = .insertHint hint a ∧ t = E.tiTy a.dyn)
    (hp : op.Apt E c) (hm : (E.traits t).nothrowMove = true) (ha : (E.traits t).nothrowAssign = true)
    {e : Exc} {c' : Coll V} {w' : World} (hr : op.run E c w = .exc e c' w') : c'.Reachable E .packed w' ∧ Intact E c t c' := by
  have hsh : ¬ E.shiftThrows t := fun h => h ⟨hm, ha⟩
  rcases hop with ⟨hint, u, src, rfl, rfl⟩ | ⟨hint, a, rfl, rfl⟩
  · refine ⟨h.stepExcApt _ hp ⟨.inl h.kind, hsh⟩ hr, ?_⟩
    obtain ⟨⟨v, hv⟩, p, hh⟩ := hp
    exact intact ((leaves_exc (emplaceHint_ends E hint p u src v c w h.inv hv hh).drop.leaves hr).unharmed h.inv (Or.inl h.kind) (Or.inl hsh)).1 h.map
  · refine ⟨h.stepExcApt _ hp ⟨.inl h.kind, hsh⟩ hr, ?_⟩
    obtain ⟨ha, ⟨v, hv⟩, p, hh⟩ := hp
    have hf := leaves_exc (insertHint_ends E hint p a v ha c w h.inv hv hh).drop.leaves hr
    rcases hf with hf | hf
    · exact intact (hf.unharmed h.inv (Or.inl h.kind) (Or.inl hsh)).1 h.map
    · exact intact (Unharmed.same hf.2.2.1) h.map

/-- A hint for a type that is not registered yet and cannot be copied. -/
example : ∃ (c : Coll Nat) (w : World) (e : Exc) (c' : Coll Nat) (w' : World), c.Reachable Sample.E5 .packed w ∧
    COp.Apt Sample.E5 c (.insertHint ⟨⟨some 2, 1⟩, ⟨none, 1⟩, ⟨6, 0⟩⟩ ⟨2, 2, true, false, .copyExt 5⟩) ∧
    ¬ COp.Pre Sample.E5 c (.insertHint ⟨⟨some 2, 1⟩, ⟨none, 1⟩, ⟨6, 0⟩⟩ ⟨2, 2, true, false, .copyExt 5⟩) ∧
    (Sample.E5.traits 1).nothrowMove = true ∧ (Sample.E5.traits 1).nothrowAssign = true ∧
    COp.run Sample.E5 (.insertHint ⟨⟨some 2, 1⟩, ⟨none, 1⟩, ⟨6, 0⟩⟩ ⟨2, 2, true, false, .copyExt 5⟩) c w = .exc e c' w' ∧
    e = .notCopyConstructible 1 ∧ c'.abs = [(1, []), (0, [5])] :=
  ⟨_, _, _, _, _, ((Reachable2.start Sample.sub Sample.sub_ty5 0 1).stepL (.emplace 0 (.emplaced 5)) rfl rfl).left,
    ⟨fun _ => rfl, ⟨5, .inl ⟨rfl, rfl⟩⟩, some (0, 0), rfl, rfl, rfl, _, .head _, rfl, rfl, by decide, rfl⟩,
    fun h => h.2.2.2.elim (by decide) (by decide), rfl, rfl, rfl, rfl, rfl⟩

/-- **C28** for all operations, including those with hints for types not registered yet: if they are defined, they leave
alone the segments they are not concerned with.  Missing: as for `C28_partial`. -/
theorem C28_hints_partial {c : Coll V} {w : World} (h : c.Reachable E k w) (op : COp V) (hp : op.Apt E c) (u : Ty) (hu : ¬ op.Touches E c u) :
    (∀ x c' w', op.run E c w = .ok x c' w' → LeftAlone E c u c') ∧ (∀ e c' w', op.run E c w = .exc e c' w' → LeftAlone E c u c') := by
  have h1 := Leaves.both (op_spares_apt op c w h.inv hp u hu) (op_apt E op c w h.inv hp)
  exact ⟨fun _ _ _ he => leftAlone (leaves_ok h1 he).1 h.inv ((leaves_ok h1 he).2.weak E).1,
    fun _ _ _ he => leftAlone (leaves_exc h1 he).1 h.inv (leaves_exc h1 he).2.2.1⟩

/-- The first element of `Sample.w11c1` as a hint for a type that is not registered. -/
example : Sample.w11c1.Reachable Sample.E5 .split ⟨10, 10⟩ ∧
    COp.Apt Sample.E5 Sample.w11c1 (.emplaceHint ⟨⟨some 4, 1⟩, ⟨none, 1⟩, ⟨9, 0⟩⟩ 4 (.emplaced 6)) ∧
    ¬ COp.Pre Sample.E5 Sample.w11c1 (.emplaceHint ⟨⟨some 4, 1⟩, ⟨none, 1⟩, ⟨9, 0⟩⟩ 4 (.emplaced 6)) ∧
    ¬ COp.Touches Sample.E5 Sample.w11c1 (.emplaceHint ⟨⟨some 4, 1⟩, ⟨none, 1⟩, ⟨9, 0⟩⟩ 4 (.emplaced 6)) 0 ∧
    ∃ c' w', COp.run Sample.E5 (.emplaceHint ⟨⟨some 4, 1⟩, ⟨none, 1⟩, ⟨9, 0⟩⟩ 4 (.emplaced 6)) Sample.w11c1 ⟨10, 10⟩ = .ok () c' w' :=
  ⟨Sample.w11reach.left, ⟨⟨6, .inl ⟨rfl, rfl⟩⟩, some (0, 0), rfl, rfl, rfl, _, .head _, rfl, rfl, by decide, rfl⟩,
    fun h => h.2.2.elim (by decide) (by decide), by simp [COp.Touches, Sample.E5, Sample.E0, Sample.env], _, _, rfl⟩

/-- **C58**, what holds of it: whether rehashing invalidates iterators matters for what is defined and for nothing else.  Whatever a
program does to its collections, the outcome is the same as if iterators survived, or undefined. -/
theorem C58_only_definedness (E : Env V) (k : Kind) (sub : Ty → TI) (op : Op V) (s : Sys V) (w : World) :
    op.run E k sub s w = .ub ∨ op.run E k sub s w = op.run { E with strictRehash := false } k sub s w :=
  Op.run_lax E k sub op s w

/-- Both cases occur: a hint, and none, in the program of `Sample.w13reach`. -/
example : COp.run Sample.E0 (.emplaceHint ⟨⟨some 4, 1⟩, ⟨none, 1⟩, ⟨9, 0⟩⟩ 4 (.emplaced 6)) Sample.w13c1 ⟨10, 10⟩ = .ub ∧
    ∃ c' w', COp.run { Sample.E0 with strictRehash := false } (.emplaceHint ⟨⟨some 4, 1⟩, ⟨none, 1⟩, ⟨9, 0⟩⟩ 4 (.emplaced 6)) Sample.w13c1 ⟨10, 10⟩ =
        .ok () c' w' ∧ c'.abs = [(2, [6]), (0, [5])] ∧
      COp.run Sample.E0 (.emplace 4 (.emplaced 6)) Sample.w13c1 ⟨10, 10⟩ = .ok () c' w' :=
  ⟨rfl, _, _, rfl, rfl, rfl⟩

end PolyColl.Props
