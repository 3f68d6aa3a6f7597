import Verif.Props.Whole
import Verif.Props.Exceptions
import Verif.Props.SampleRecovery
import Verif.Lemmas.Mend
/-!
# C59, C60: collections after operations that threw
-/

namespace PolyColl.Props
open PolyColl Prog Coll

variable {V : Type} {E : Env V} {k : Kind}

/-! ### C59 -/

/-- Moving elements of type `t` within their segment cannot fail. -/
def MovesSafely (E : Env V) (t : Ty) : Prop := (E.traits t).nothrowMove = true ∧ (E.traits t).nothrowAssign = true

/-- The operation does not insert a range of elements of one type in one go at a hint or out of a
single-pass range, nor elements before others whose moves can throw. -/
def Orderly (E : Env V) (c : Coll V) : COp V → Prop
  | .emplaceHint _ t _ | .emplacePosBase _ t _ | .emplacePosLocal _ t _ | .insertPosRangeLocal _ t _ => MovesSafely E (E.tiTy t)
  | .insertHint _ a | .insertPosBase _ a | .insertPosLocal _ a => MovesSafely E (E.tiTy a.dyn)
  | .insertHintRange _ as | .insertPosRangeBase _ as => ∀ a ∈ as, MovesSafely E (E.tiTy a.dyn)
  | .insertRangeTerminal multipass _ _ => multipass = true
  | .insertHintRangeTerminal hint multipass t _ => multipass = true ∧ ∀ n, ¬ c.At E hint (some (E.tiTy t, n))
  | _ => True

theorem Orderly.strong {c : Coll V} (hk : c.kind = .packed) {op : COp V} (h : Orderly E c op) : op.Strong E c := by
  have hf : ∀ t m, COp.Fits c t m := fun _ _ => Or.inl hk
  cases op <;> simp only [Orderly] at h <;> simp only [COp.Strong]
  all_goals first
    | exact hk
    | exact hf _ _
    | exact ⟨hf _ _, fun h' => h' h⟩
    | exact ⟨hk, fun h' => h' h⟩
    | exact ⟨hk, fun a ha h' => h' (h a ha)⟩
    | exact ⟨h, hf _ _⟩
    | exact ⟨h.1, hf _ _, h.2⟩

/-- **C59.**  Whatever throws in an operation on a `base_collection`, the collection can be used as before: the loop from
`begin()` to `end()` meets exactly the elements it then holds, and all further operations work as documented.

Missing: insertions that put several elements in one go at a hint or out of a single-pass range, and insertions
before other elements whose moves can throw.  See `C59_single_pass` and `C59_hint`. -/
theorem C59_usable_partial {c : Coll V} {w : World} (h : c.Reachable E .packed w) (op : COp V) (hp : op.Pre E c) (ho : Orderly E c op) :
    Runs (op.run E) c w (fun _ _ _ => True)
      (fun _ c' w' => c'.Reachable E .packed w' ∧ Traversed E c' c'.abs.flat ∧ c'.abs.flat.length = c'.size) := by
  refine (op_good E op c w h.inv hp).withEq.mono (fun _ _ _ _ => trivial) ?_
  rintro e c' w' ⟨-, he⟩
  have hr := h.stepExc op hp (Orderly.strong h.kind ho) he
  exact ⟨hr, traversed hr.inv, (size_abs c').symm⟩

/-- In the example program all kinds of operations are orderly, and an insertion throws. -/
example : (Sample.c0 .packed).Reachable Sample.E0 .packed (Sample.w0 .packed) ∧
    Orderly Sample.E0 (Sample.c0 .packed) (.insert ⟨2, 2, true, false, .copyExt 5⟩) ∧
    (COp.insert ⟨2, 2, true, false, .copyExt 5⟩).Pre Sample.E0 (Sample.c0 .packed) ∧
    (∃ c' w', COp.run Sample.E0 (.insert ⟨2, 2, true, false, .copyExt 5⟩) (Sample.c0 .packed) (Sample.w0 .packed) = .exc (.notCopyConstructible 1) c' w') ∧
    Orderly Sample.E0 (Sample.c0 .packed) (.insertRangeTerminal true 4 [.copyExt 5, .copyExt 6]) ∧
    Orderly Sample.E0 (Sample.c0 .packed) (.insertHintRange (Sample.c0 .packed).end [⟨2, 2, true, false, .copyExt 5⟩, ⟨0, 0, true, false, .copyExt 5⟩]) ∧
    ∀ it, Orderly Sample.E0 (Sample.c0 .packed) (.erase it) := by
  refine ⟨Sample.reach0 _, trivial, ⟨fun _ => rfl, 5, Or.inl ⟨rfl, rfl⟩⟩, ⟨_, _, rfl⟩, rfl, ?_, fun _ => trivial⟩
  intro a ha
  simp only [List.mem_cons, List.not_mem_nil, or_false] at ha
  rcases ha with rfl | rfl <;> exact ⟨rfl, rfl⟩

/-- **C59 fails** for single-pass ranges: `c.insert<T>(first,last)` runs out of memory after the first element, which has
made the segment move to a larger buffer.  The loop from `begin()` to `end()` then runs past the elements. -/
theorem C59_single_pass : ∃ (E : Env Nat) (c c' : Coll Nat) (w w' : World) (op : COp Nat) (it : GIter), c.Reachable E .packed w ∧ c.abs = [(0, [5])] ∧
    op = .insertRangeTerminal false 0 [.copyExt 6, .copyExt 7] ∧ op.Pre E c ∧ op.run E c w = .exc .badAlloc c' w' ∧ c'.abs = [(0, [5, 6])] ∧
    c'.begin E = some it ∧ ∀ fuel, 3 ≤ fuel → c'.walk E c'.end it fuel = none := by
  refine ⟨Sample.env fun t => t == 8, Sample.w59c1, Sample.w59x, ⟨7, 7⟩, ⟨8, 9⟩, _, ⟨⟨some 2, 1⟩, ⟨none, 1⟩, ⟨7, 0⟩⟩, Sample.w59reach.left, rfl, rfl, ?_,
    Sample.w59exc, rfl, rfl, ?_⟩
  · intro src hs
    simp only [List.mem_cons, List.not_mem_nil, or_false] at hs
    rcases hs with rfl | rfl <;> rfl
  · intro fuel hf
    obtain ⟨n, rfl⟩ : ∃ n, fuel = n + 3 := ⟨fuel - 3, by omega⟩
    rfl

/-- **C59 fails** for hints: a range is inserted before the first of two elements and copying the second one throws.  The
collection says that it has four elements, but the loop from `begin()` to `end()` meets two. -/
theorem C59_hint : ∃ (E : Env Nat) (c c' : Coll Nat) (w w' : World) (op : COp Nat) (it h : GIter), c.Reachable E .packed w ∧ c.abs = [(2, [5, 6])] ∧
    op = .insertHintRangeTerminal h true 4 [.copyExt 7, .copyExt 8] ∧ op.Pre E c ∧ op.run E c w = .exc .user c' w' ∧ c'.size = 4 ∧
    c'.begin E = some it ∧ (c'.walk E c'.end it 10).map List.length = some 2 := by
  refine ⟨Sample.env fun t => t == 10, Sample.w59hc3, Sample.w59hx, ⟨7, 8⟩, ⟨7, 11⟩, _, ⟨⟨some 2, 1⟩, ⟨none, 1⟩, ⟨6, 0⟩⟩, _, Sample.w59hreach.left, rfl, rfl,
    ⟨?_, Or.inr (by decide), ?_⟩, Sample.w59hexc, rfl, rfl, rfl⟩
  · exact ⟨some (2, 0), usable_itTo _ Sample.w59hc3.map ⟨2, 4, ⟨.packed ⟨2, 0, 0, ⟨6, 4, [5, 6]⟩⟩, ⟨6, 2⟩⟩⟩, usable_end _ Sample.w59hc3.map, rfl, ⟨2, 4, _⟩, List.mem_singleton.2 rfl, rfl, rfl, by decide, rfl⟩
  · intro src hs
    simp only [List.mem_cons, List.not_mem_nil, or_false] at hs
    rcases hs with rfl | rfl <;> rfl

/-- **C59**, what can go wrong: whatever has been done with a `base_collection` and whatever was thrown, the loop from `begin()` to
`end()` is undefined or meets, in each segment, none but some of its first elements, in order. -/
theorem C59_prefixes {c : Coll V} {w : World} (h : c.Possible E .packed w) :
    ∃ it, c.begin E = some it ∧ ∀ fuel l, c.walk E c.end it fuel = some l →
      l.Sublist c.abs.flat ∧ ∃ qs, All2 (fun (p : Ty × List V) q => q <+: p.2) c.abs qs ∧ l = qs.flatten := by
  obtain ⟨sub, s, i, hsub, hr, rfl⟩ := h
  obtain ⟨it, h1, h2⟩ := walk_prefix (reach_core hsub hr i)
  refine ⟨it, h1, fun fuel l hl => ?_⟩
  obtain ⟨qs, h3, rfl⟩ := h2 fuel l hl
  clear hl h1 h2
  refine ⟨?_, qs, h3, rfl⟩
  unfold Spec.State.flat
  generalize (s i).abs = x at h3
  induction h3 with
  | nil => exact .slnil
  | cons h _ ih => simp only [List.flatMap_cons, List.flatten_cons]; exact h.sublist.append ih

/-- The state of `C59_hint` is possible, and two of four elements are met. -/
example : ∃ (E : Env Nat) (c : Coll Nat) (w : World) (it : GIter) (l : List Nat), c.Possible E .packed w ∧ c.begin E = some it ∧ c.walk E c.end it 10 = some l ∧
    l.length = 2 ∧ c.size = 4 := by
  refine ⟨Sample.env fun t => t == 10, Sample.w59hx, ⟨7, 11⟩, _, _, ?_, rfl, rfl, rfl, rfl⟩
  obtain ⟨sub, s, i, hsub, hr, hc⟩ := Sample.w59hreach.left.possible
  refine ⟨sub, s.put i Sample.w59hx, i, hsub, .exc hr (.on i (.insertHintRangeTerminal ⟨⟨some 2, 1⟩, ⟨none, 1⟩, ⟨6, 0⟩⟩ true 4 [.copyExt 7, .copyExt 8])) (by simp [Op.args, COp.args]) (e := .user) ?_, by simp [Sys.put]⟩
  simp only [Op.run, Sys.on, zoom, hc, Sample.w59hexc]

/-! ### C60 -/

section
variable {sub : Ty → TI} {H : Nat → Health} {s : Sys V} {w : World}

/-- Collection `i` is the only one that `op` works on, or the one that is moved to a new collection with an allocator given. -/
def WorksOn (op : Op V) (i : Nat) : Prop :=
  (∃ o, op = .on i o) ∨ (∃ j f l, op = .insertColl i j f l) ∨ (∃ j f l, op = .insertLocalColl i j f l) ∨
    (∃ j h f l, op = .insertHintColl i j h f l) ∨ (∃ j h f l, op = .insertHintLocalColl i j h f l) ∨ ∃ j al, op = .moveAl j i al

theorem WorksOn.hit {op : Op V} {i : Nat} (h : WorksOn op i) : op.hit = some i ∧ i ∈ op.needs := by
  rcases h with ⟨o, rfl⟩ | ⟨j, f, l, rfl⟩ | ⟨j, f, l, rfl⟩ | ⟨j, h, f, l, rfl⟩ | ⟨j, h, f, l, rfl⟩ | ⟨j, al, rfl⟩ <;>
    exact ⟨rfl, by simp [Op.needs]⟩

theorem WorksOn.others (h : s.Reached E k sub H w) {op : Op V} {i : Nat} (hop : WorksOn op i) (hn : ∀ j ∈ op.needs, H j = .sound) (hp : op.Apt E s)
    {e : Exc} {s' : Sys V} {w' : World} (hr : op.run E k sub s w = .exc e s' w') : ∀ x, x ≠ i → s' x = s x := by
  have key : (∀ x, op.Changes x → x = i) → ∀ x, x ≠ i → s' x = s x := fun h3 x hx =>
    C33_independent h.ids (GoodReach.reach E h.reach) op (Or.inr hr) (fun hc => hx (h3 x hc))
  rcases hop with ⟨o, rfl⟩ | ⟨j, f, l, rfl⟩ | ⟨j, f, l, rfl⟩ | ⟨j, h, f, l, rfl⟩ | ⟨j, h, f, l, rfl⟩ | ⟨j, al, rfl⟩
  · exact key fun x hx => hx
  · exact key fun x hx => hx
  · exact key fun x hx => hx
  · exact key fun x hx => hx
  · exact key fun x hx => hx
  · have hj : H i = .sound := hn i (by simp [Op.needs])
    have hr' : Runs (Op.run E k sub (.moveAl j i al)) s w (fun _ _ _ => True) (fun _ s' _ => ∀ x, x ≠ i → s' x = s x) := by
      simp only [Op.run, if_neg (show j ≠ i from hp), Sys.construct, Sys.on, runs_bind, runs_get, runs_set, runs_zoom]
      exact (moveAl_runs E al (s i) w (h.inv hj)).mono (fun _ _ _ _ => trivial) (fun _ _ _ _ x hx => Sys.put_other _ _ hx)
    unfold Runs at hr'
    rw [hr] at hr'
    exact hr'

theorem cleared_elemsOf (x : Spec.State V) (t : Ty) : x.cleared.elemsOf t = [] := by
  have : ∀ l, List.lookup t (x.map fun p => (p.1, ([] : List V))) = some l → l = [] := by
    induction x with
    | nil => intro l h; cases h
    | cons p x ih =>
      intro l h
      rw [List.map_cons, List.lookup_cons] at h
      split at h
      · cases h; rfl
      · exact ih l h
  unfold Spec.State.elemsOf Spec.State.get Spec.State.cleared
  split
  · exact this _ ‹_›
  · rfl

/-- **C60.**  Whatever an operation on a collection throws and however it leaves the collection (or the source of a construction by move with an
allocator, see `C34_source_exactly`), `clear()` then works: it does not
throw, the collection is empty, has its types as before, and can be used again without restrictions.  Other collections are as before. -/
theorem C60_clear_partial (h : s.Reached E k sub H w) {i : Nat} {op : Op V} (hop : WorksOn op i) (hn : ∀ j ∈ op.needs, H j = .sound) (hp : op.Apt E s)
    {e : Exc} {s' : Sys V} {w' : World} (hr : op.run E k sub s w = .exc e s' w') :
    Runs (Op.run E k sub (.on i .clearAll)) s' w'
      (fun _ s'' w'' => s''.Reached E k sub H w'' ∧ (s'' i).Reachable E k w'' ∧ (s'' i).abs.types = (s' i).abs.types ∧ (∀ t, (s'' i).abs.elemsOf t = []) ∧
        Traversed E (s'' i) [] ∧ ∀ j, j ≠ i → s'' j = s j)
      (fun _ _ _ => False) := by
  obtain ⟨h1, h2⟩ := hop.hit
  have hu : s'.Reached E k sub (Health.mark H [i] .hurt) w' := ⟨h.ids, .hurt h.reach op hn hp hr i h1⟩
  have hl : Health.mark H [i] .hurt i ≠ .lost ∨ k = .packed := Or.inl (by simp [Health.mark])
  have hm : Health.mark (Health.mark H [i] .hurt) [i] .sound = H := by
    funext x
    by_cases hx : x = i
    · subst hx; simp [Health.mark, hn x h2]
    · simp [Health.mark, hx]
  refine (hu.good.clear E (GoodReach.weak E hu.ids hu.reach hu.good hl)).withEq.mono ?_ (fun _ _ _ h => h.1)
  rintro _ s'' w'' ⟨⟨-, h5, h6⟩, he⟩
  have hr' : s''.Reached E k sub H w'' := ⟨h.ids, hm ▸ .clear hu.reach i hl he⟩
  have hi := hr'.coll (hn i h2)
  have hflat : (s'' i).abs.flat = [] := by
    rw [h5]
    simp [Spec.State.cleared, Spec.State.flat, List.flatMap_map]
  refine ⟨hr', hi, ?_, ?_, hflat ▸ traversed hi.inv, fun j hj => ?_⟩
  · rw [h5]; exact Spec.State.cleared_types _
  · intro t; rw [h5]; exact cleared_elemsOf _ t
  · rw [h6 j hj]
    exact hop.others h hn hp hr j hj

/-- **C60** for `base_collection`: whatever has been done with collections, and however many operations have thrown, `clear()` does
not throw, and the collection is empty, has its types as before, and can be used again without restrictions. -/
theorem C60_clear_base_collection (h : s.Reached E .packed sub H w) (i : Nat) :
    Runs (Op.run E .packed sub (.on i .clearAll)) s w
      (fun _ s' w' => s'.Reached E .packed sub (Health.mark H [i] .sound) w' ∧ (s' i).Reachable E .packed w' ∧ (s' i).abs.types = (s i).abs.types ∧
        (∀ t, (s' i).abs.elemsOf t = []) ∧ Traversed E (s' i) [] ∧ ∀ j, j ≠ i → s' j = s j)
      (fun _ _ _ => False) := by
  refine (h.good.clear E (GoodReach.weak E h.ids h.reach h.good (i := i) (Or.inr rfl))).withEq.mono ?_ (fun _ _ _ h => h.1)
  rintro _ s' w' ⟨⟨-, h5, h6⟩, he⟩
  have hr' : s'.Reached E .packed sub (Health.mark H [i] .sound) w' := ⟨h.ids, .clear h.reach i (Or.inr rfl) he⟩
  have hi := hr'.coll (i := i) (by simp [Health.mark])
  have hflat : (s' i).abs.flat = [] := by
    rw [h5]
    simp [Spec.State.cleared, Spec.State.flat, List.flatMap_map]
  exact ⟨hr', hi, by rw [h5]; exact Spec.State.cleared_types _, fun t => by rw [h5]; exact cleared_elemsOf _ t, hflat ▸ traversed hi.inv, h6⟩

/-- **C60** for `base_collection`, without loss: whatever has been done with collections, and however many operations have thrown,
`reserve(0)` does not throw, and the collection has the elements that it had and can be used again without restrictions.
The same is true of `reserve(n)`, if it does not throw. -/
theorem C60_reserve_base_collection (h : s.Reached E .packed sub H w) (i n : Nat) :
    Runs (Op.run E .packed sub (.on i (.reserveAll n))) s w
      (fun _ s' w' => s'.Reached E .packed sub (Health.mark H [i] .sound) w' ∧ (s' i).Reachable E .packed w' ∧ (s' i).abs = (s i).abs ∧
        Traversed E (s' i) (s i).abs.flat ∧ ∀ j, j ≠ i → s' j = s j)
      (fun _ s' _ => n ≠ 0 ∧ (s' i).abs = (s i).abs ∧ ∀ j, j ≠ i → s' j = s j) := by
  have hc := reach_core h.ids (GoodReach.reach E h.reach) i
  refine (h.good.mend E (i := i) (n := n) (sub := sub) hc).withEq.mono ?_ ?_
  · rintro _ s' w' ⟨⟨-, h5, h6⟩, he⟩
    have hr' : s'.Reached E .packed sub (Health.mark H [i] .sound) w' := ⟨h.ids, .mend h.reach i n (Or.inl rfl) he⟩
    have hi := hr'.coll (i := i) (by simp [Health.mark])
    exact ⟨hr', hi, h5, h5 ▸ traversed hi.inv, h6⟩
  · rintro e s' w' ⟨⟨h5, h6⟩, he⟩
    refine ⟨?_, h5, h6⟩
    rintro rfl
    obtain ⟨c', h7⟩ := reserve_zero (E := E) (c := s i) (w := w) fun n hn => (hc.map.kind n hn).trans ((h.good.1 i).kind E)
    simp only [Op.run, COp.run, Sys.on, zoom, h7] at he
    cases he

/-- The collection of `C59_single_pass`, whose loop from `begin()` to `end()` is undefined, is mended by `reserve(0)`. -/
example : ∃ (E : Env Nat) (sub : Ty → TI) (H : Nat → Health) (s : Sys Nat) (w : World) (i : Nat) (c' : Coll Nat) (it it' : GIter), s.Reached E .packed sub H w ∧ H i = .hurt ∧
    (s i).begin E = some it ∧ (s i).walk E (s i).end it 10 = none ∧ (COp.reserveAll 0).run E (s i) w = .ok () c' w ∧
    c'.begin E = some it' ∧ c'.walk E c'.end it' 10 = some [5, 6] := by
  obtain ⟨sub, H, s, i, j, hsub, hr, hij, hi, -, hc, -⟩ := Sample.w59reach
  have hr' : Op.run (Sample.env fun t => t == 8) .packed sub (.on i (.insertRangeTerminal false 0 [.copyExt 6, .copyExt 7])) s ⟨7, 7⟩ =
      .exc .badAlloc (s.put i Sample.w59x) ⟨8, 9⟩ := by
    simp only [Op.run, Sys.on, zoom, hc, Sample.w59exc]
  refine ⟨_, sub, Health.mark H [i] .hurt, s.put i Sample.w59x, ⟨8, 9⟩, i,
    ⟨.packed, ⟨[⟨2, 0, ⟨.packed ⟨0, 0, 0, ⟨7, 2, [5, 6]⟩⟩, ⟨7, 2⟩⟩⟩], 1, 1, 0, [(0, ⟨some 2, 1⟩)]⟩⟩, ⟨⟨some 2, 1⟩, ⟨none, 1⟩, ⟨7, 0⟩⟩, ⟨⟨some 2, 1⟩, ⟨none, 1⟩, ⟨7, 0⟩⟩,
    ⟨hsub, .hurt hr _ (by simpa [Op.needs] using hi) ?_ hr' i rfl⟩, by simp [Health.mark], ?_, ?_, ?_, ?_, ?_⟩
  · intro src hs
    simp only [List.mem_cons, List.not_mem_nil, or_false] at hs
    rcases hs with rfl | rfl <;> rfl
  all_goals first | rw [Sys.put_same]; rfl | rfl

/-- **C60** without loss, for all collections: whatever an operation on a collection throws and however it leaves the collection, `reserve(n)`
with `n` greater than the capacity of each of its segments mends it, if it does not throw: the collection has the elements that it had and can be used
again without restrictions.  If it throws, the collection still has them, and `reserve(n)` can be tried again, or `clear()` (`C60_reserve`, `C60_clear`).

Missing: smaller `n` (see `C60_reserve_small`). -/
theorem C60_reserve_partial (h : s.Reached E k sub H w) {i : Nat} {op : Op V} (hop : WorksOn op i) (hn : ∀ j ∈ op.needs, H j = .sound) (hp : op.Apt E s)
    {e : Exc} {s' : Sys V} {w' : World} (hr : op.run E k sub s w = .exc e s' w') {n : Nat} (hx : ∀ m ∈ (s' i).map.nodes, m.seg.capacity < n) :
    Runs (Op.run E k sub (.on i (.reserveAll n))) s' w'
      (fun _ s'' w'' => s''.Reached E k sub H w'' ∧ (s'' i).Reachable E k w'' ∧ (s'' i).abs = (s' i).abs ∧ Traversed E (s'' i) (s' i).abs.flat ∧
        ∀ j, j ≠ i → s'' j = s j)
      (fun _ s'' w'' => s''.Reached E k sub (Health.mark H [i] .hurt) w'' ∧ (s'' i).abs = (s' i).abs ∧ ∀ j, j ≠ i → s'' j = s j) := by
  obtain ⟨h1, h2⟩ := hop.hit
  have hu : s'.Reached E k sub (Health.mark H [i] .hurt) w' := ⟨h.ids, .hurt h.reach op hn hp hr i h1⟩
  have hl : Health.mark H [i] .hurt i ≠ .lost := by simp [Health.mark]
  have hm : ∀ g, Health.mark (Health.mark H [i] .hurt) [i] g = Health.mark H [i] g := by
    intro g
    funext x
    by_cases hx : x = i <;> simp [Health.mark, hx]
  have hH : Health.mark H [i] .sound = H := Coll.mark_sound (by simpa using hn i h2)
  have ho := hop.others h hn hp hr
  refine (hu.good.reserve E (n := n) (sub := sub) (GoodReach.weak E hu.ids hu.reach hu.good (Or.inl hl))).withEq.mono ?_ ?_
  · rintro _ s'' w'' ⟨⟨-, -, h5, h6⟩, he⟩
    have hr' : s''.Reached E k sub H w'' := ⟨h.ids, hH ▸ hm .sound ▸ .mend hu.reach i n (Or.inr hx) he⟩
    have hi := hr'.coll (hn i h2)
    exact ⟨hr', hi, h5, h5 ▸ traversed hi.inv, fun j hj => (h6 j hj).trans (ho j hj)⟩
  · rintro e' s'' w'' ⟨⟨-, h5, h6⟩, he⟩
    exact ⟨⟨h.ids, hm .hurt ▸ .tried hu.reach i n (Or.inl hl) (Or.inr ⟨_, he⟩)⟩, h5, fun j hj => (h6 j hj).trans (ho j hj)⟩

/-- **C60** without loss, whenever no more than one operation has failed since the collection was known to be in order, and any number of calls to `reserve`. -/
theorem C60_reserve (h : s.Reached E k sub H w) {i n : Nat} (hi : H i ≠ .lost) (hx : ∀ m ∈ (s i).map.nodes, m.seg.capacity < n) :
    Runs (Op.run E k sub (.on i (.reserveAll n))) s w
      (fun _ s' w' => s'.Reached E k sub (Health.mark H [i] .sound) w' ∧ (s' i).Reachable E k w' ∧ (s' i).abs = (s i).abs ∧
        Traversed E (s' i) (s i).abs.flat ∧ ∀ j, j ≠ i → s' j = s j)
      (fun _ s' w' => s'.Reached E k sub (Health.mark H [i] .hurt) w' ∧ (s' i).abs = (s i).abs ∧ ∀ j, j ≠ i → s' j = s j) := by
  refine (h.good.reserve E (n := n) (sub := sub) (GoodReach.weak E h.ids h.reach h.good (Or.inl hi))).withEq.mono ?_ ?_
  · rintro _ s' w' ⟨⟨-, -, h5, h6⟩, he⟩
    have hr' : s'.Reached E k sub (Health.mark H [i] .sound) w' := ⟨h.ids, .mend h.reach i n (Or.inr hx) he⟩
    have hc := hr'.coll (i := i) (by simp [Health.mark])
    exact ⟨hr', hc, h5, h5 ▸ traversed hc.inv, h6⟩
  · rintro e s' w' ⟨⟨-, h5, h6⟩, he⟩
    exact ⟨⟨h.ids, .tried h.reach i n (Or.inl hi) (Or.inr ⟨_, he⟩)⟩, h5, h6⟩

/-- **C60** without loss, **after any number of failures** and whatever else was done with the collection in between: `reserve(n)` with `n` greater than
the capacity of each segment mends the collection if it returns, even if `clear()` would be undefined (`C60_repeated`).  If it throws, the collection has
the elements that it had, and `reserve(n)` can be tried again. -/
theorem C60_reserve_always (h : s.Reached E k sub H w) {i n : Nat} (hx : ∀ m ∈ (s i).map.nodes, m.seg.capacity < n) :
    Runs (Op.run E k sub (.on i (.reserveAll n))) s w
      (fun _ s' w' => s'.Reached E k sub (Health.mark H [i] .sound) w' ∧ (s' i).Reachable E k w' ∧ (s' i).abs = (s i).abs ∧
        Traversed E (s' i) (s i).abs.flat ∧ ∀ j, j ≠ i → s' j = s j)
      (fun _ s' w' => s'.Reached E k sub (Health.mark H [i] .lost) w' ∧ (s' i).abs = (s i).abs ∧ ∀ j, j ≠ i → s' j = s j) := by
  refine (h.good.reserveAny E (n := n) (sub := sub) (reach_held h.ids (GoodReach.reach E h.reach) i) hx).withEq.mono ?_ ?_
  · rintro _ s' w' ⟨⟨-, h5, h6⟩, he⟩
    have hr' : s'.Reached E k sub (Health.mark H [i] .sound) w' := ⟨h.ids, .mend h.reach i n (Or.inr hx) he⟩
    have hc := hr'.coll (i := i) (by simp [Health.mark])
    exact ⟨hr', hc, h5, h5 ▸ traversed hc.inv, h6⟩
  · rintro e s' w' ⟨⟨h5, h6⟩, he⟩
    exact ⟨⟨h.ids, .lose h.reach _ (by simp [Op.args, COp.args]) (Or.inr ⟨_, he⟩)⟩, h5, h6⟩

/-- **C60** without loss by `shrink_to_fit()`: it mends a collection if the library gives back memory for each segment that is not empty; a `base_collection` in any case.
Otherwise it does no harm: the collection has the elements that it had, and can be mended by `reserve(n)` or `clear()`.

Missing: segments for which there is nothing to give back. -/
theorem C60_shrink_partial (h : s.Reached E k sub H w) {i : Nat} (hi : H i ≠ .lost ∨ k = .packed) :
    Runs (Op.run E k sub (.on i .shrinkAll)) s w
      (fun _ s' w' => s'.Reached E k sub (Health.mark H [i] .hurt) w' ∧ (s' i).abs = (s i).abs ∧ (∀ j, j ≠ i → s' j = s j) ∧
        ((k = .packed ∨ ∀ m ∈ (s i).map.nodes, m.seg.size = 0 ∨ E.lib.shrinkCap m.seg.size m.seg.capacity ≠ m.seg.capacity) →
          s'.Reached E k sub (Health.mark H [i] .sound) w' ∧ (s' i).Reachable E k w' ∧ Traversed E (s' i) (s i).abs.flat))
      (fun _ s' w' => s'.Reached E k sub (Health.mark H [i] .hurt) w' ∧ (s' i).abs = (s i).abs ∧ ∀ j, j ≠ i → s' j = s j) := by
  have hw := GoodReach.weak E h.ids h.reach h.good hi
  refine (h.good.shrink E (sub := sub) hw).withEq.mono ?_ ?_
  · rintro _ s' w' ⟨⟨-, -, h5, h6⟩, he⟩
    refine ⟨⟨h.ids, .shrank h.reach i hi (Or.inl he)⟩, h5, h6, fun hx => ?_⟩
    have hk : ∀ m ∈ (s i).map.nodes, m.seg.kind = k := fun m hm => (hw.map.kind m hm).trans ((h.good.1 i).kind E)
    have hr' : s'.Reached E k sub (Health.mark H [i] .sound) w' :=
      ⟨h.ids, .shrunk h.reach i hi (fun m hm => hx.elim (fun hp => Or.inl ((hk m hm).trans hp)) (fun hx => Or.inr (hx m hm))) he⟩
    have hc := hr'.coll (i := i) (by simp [Health.mark])
    exact ⟨hr', hc, h5 ▸ traversed hc.inv⟩
  · rintro e s' w' ⟨⟨-, h5, h6⟩, he⟩
    exact ⟨⟨h.ids, .shrank h.reach i hi (Or.inr ⟨_, he⟩)⟩, h5, h6⟩

/-- The collection of `C17_any_collection`, in which an erasure has failed: there are three elements in its segment and room for a fourth, `shrink_to_fit()` returns,
and the loop over all elements meets what the erasure has left.  -/
example : ∃ (E : Env Nat) (sub : Ty → TI) (H : Nat → Health) (s : Sys Nat) (w : World) (i : Nat), s.Reached E .split sub H w ∧ H i = .hurt ∧
    (∀ m ∈ (s i).map.nodes, E.lib.shrinkCap m.seg.size m.seg.capacity ≠ m.seg.capacity) ∧ ¬ (s i).Inv E w ∧
    ∃ c'' w'' it, shrinkAll E (s i) w = .ok () c'' w'' ∧ c''.begin E = some it ∧ c''.walk E c''.end it 10 = some [100, 101, 102] := by
  obtain ⟨sub, H, s, i, j, hsub, hr, hij, hi, -, hc, -⟩ := Sample.w17reach
  have hr' : Op.run (Sample.env fun t => t == 13) .split sub (.on i (.erase ⟨⟨some 4, 1⟩, ⟨none, 1⟩, ⟨9, 0⟩⟩)) s ⟨11, 13⟩ = .exc .user (s.put i Sample.w17x) ⟨11, 14⟩ := by
    simp only [Op.run, Sys.on, zoom, hc, Sample.w17exc]
  have hn : ∀ x ∈ (Op.on i (.erase ⟨⟨some 4, 1⟩, ⟨none, 1⟩, ⟨9, 0⟩⟩) : Op Nat).needs, H x = .sound := by simpa [Op.needs] using hi
  have hp : (Op.on i (.erase ⟨⟨some 4, 1⟩, ⟨none, 1⟩, ⟨9, 0⟩⟩) : Op Nat).Apt (Sample.env fun t => t == 13) s := by
    show ∃ t n, (s i).At _ _ (some (t, n))
    rw [hc]
    exact ⟨2, 0, rfl, rfl, rfl, _, .head _, rfl, rfl, by decide, rfl⟩
  refine ⟨_, sub, Health.mark H [i] .hurt, s.put i Sample.w17x, _, i, ⟨hsub, .hurt hr _ hn hp hr' i rfl⟩, by simp [Health.mark], ?_, fun h => ?_, ?_⟩
  · rw [Sys.put_same]; decide
  · rw [Sys.put_same] at h
    have := (h.mem.segs _ (.head _)).core.whole.1
    exact absurd this (by decide)
  · rw [Sys.put_same]
    exact ⟨_, _, _, rfl, rfl, rfl⟩

/-- `clear()` likewise. -/
theorem C60_clear (h : s.Reached E k sub H w) {i : Nat} (hi : H i ≠ .lost) :
    Runs (Op.run E k sub (.on i .clearAll)) s w
      (fun _ s' w' => s'.Reached E k sub (Health.mark H [i] .sound) w' ∧ (s' i).Reachable E k w' ∧ (s' i).abs.types = (s i).abs.types ∧
        (∀ t, (s' i).abs.elemsOf t = []) ∧ Traversed E (s' i) [] ∧ ∀ j, j ≠ i → s' j = s j)
      (fun _ _ _ => False) := by
  refine (h.good.clear E (GoodReach.weak E h.ids h.reach h.good (i := i) (Or.inl hi))).withEq.mono ?_ (fun _ _ _ h => h.1)
  rintro _ s' w' ⟨⟨-, h5, h6⟩, he⟩
  have hr' : s'.Reached E k sub (Health.mark H [i] .sound) w' := ⟨h.ids, .clear h.reach i (Or.inl hi) he⟩
  have hc := hr'.coll (i := i) (by simp [Health.mark])
  have hflat : (s' i).abs.flat = [] := by
    rw [h5]
    simp [Spec.State.cleared, Spec.State.flat, List.flatMap_map]
  exact ⟨hr', hc, by rw [h5]; exact Spec.State.cleared_types _, fun t => by rw [h5]; exact cleared_elemsOf _ t, hflat ▸ traversed hc.inv, h6⟩

/-- The collection of `C17_any_collection`, in which an erasure has failed: it is hurt, it does not have room for five elements in its segment, `reserve(5)` returns,
and the loop over all elements meets what the erasure has left.  -/
example : ∃ (E : Env Nat) (sub : Ty → TI) (H : Nat → Health) (s s' : Sys Nat) (w w' : World) (i : Nat) (op : Op Nat), s.Reached E .split sub H w ∧
    WorksOn op i ∧ (∀ j ∈ op.needs, H j = .sound) ∧ op.Apt E s ∧ op.run E .split sub s w = .exc .user s' w' ∧ (∀ m ∈ (s' i).map.nodes, m.seg.capacity < 5) ∧
    ¬ (s' i).Inv E w' ∧ s'.Reached E .split sub (Health.mark H [i] .hurt) w' ∧
    ∃ c'' w'' it, reserveAll E 5 (s' i) w' = .ok () c'' w'' ∧ c''.begin E = some it ∧ c''.walk E c''.end it 10 = some [100, 101, 102] := by
  obtain ⟨sub, H, s, i, j, hsub, hr, hij, hi, -, hc, -⟩ := Sample.w17reach
  have hr' : Op.run (Sample.env fun t => t == 13) .split sub (.on i (.erase ⟨⟨some 4, 1⟩, ⟨none, 1⟩, ⟨9, 0⟩⟩)) s ⟨11, 13⟩ = .exc .user (s.put i Sample.w17x) ⟨11, 14⟩ := by
    simp only [Op.run, Sys.on, zoom, hc, Sample.w17exc]
  have hn : ∀ x ∈ (Op.on i (.erase ⟨⟨some 4, 1⟩, ⟨none, 1⟩, ⟨9, 0⟩⟩) : Op Nat).needs, H x = .sound := by simpa [Op.needs] using hi
  have hp : (Op.on i (.erase ⟨⟨some 4, 1⟩, ⟨none, 1⟩, ⟨9, 0⟩⟩) : Op Nat).Apt (Sample.env fun t => t == 13) s := by
    show ∃ t n, (s i).At _ _ (some (t, n))
    rw [hc]
    exact ⟨2, 0, rfl, rfl, rfl, _, .head _, rfl, rfl, by decide, rfl⟩
  refine ⟨_, sub, H, s, s.put i Sample.w17x, _, _, i, _, ⟨hsub, hr⟩, Or.inl ⟨_, rfl⟩, hn, hp, hr', ?_, fun h => ?_, ⟨hsub, .hurt hr _ hn hp hr' i rfl⟩, ?_⟩
  · rw [Sys.put_same]; decide
  · rw [Sys.put_same] at h
    have := (h.mem.segs _ (.head _)).core.whole.1
    exact absurd this (by decide)
  · rw [Sys.put_same]
    exact ⟨_, _, _, rfl, rfl, rfl⟩

/-- **C60 without loss fails** if `n` is not greater than the capacity: an erasure has thrown, `reserve(4)` returns without doing anything, and the iterator
returned by the next emplacement does not refer to any element. -/
theorem C60_reserve_small : ∃ (E : Env Nat) (c c1 c2 c3 : Coll Nat) (w w1 w2 w3 : World) (it r : GIter), c.Reachable E .split w ∧ c.At E it (some (2, 0)) ∧
    (COp.erase it).run E c w = .exc .user c1 w1 ∧ c1.size = 3 ∧ reserveAll E 4 c1 w1 = .ok () c2 w2 ∧ emplace E 4 (.emplaced 9) c2 w2 = .ok r c3 w3 ∧ c3.size = 4 ∧
    c3.map.deref r.segpos = none := by
  refine ⟨_, Sample.w17c4, Sample.w17x, _, _, _, _, _, _, _, _, Sample.w17reach.left, ?_, Sample.w17exc, rfl, rfl, rfl, rfl, rfl⟩
  exact ⟨rfl, rfl, rfl, _, .head _, rfl, rfl, by decide, rfl⟩

/-- **C60 without loss fails** for `shrink_to_fit()` if there is nothing to give back: an erasure in a full segment has thrown, `shrink_to_fit()` returns
without doing anything, another erasure succeeds, and the iterator returned by the next emplacement does not refer to any element. -/
theorem C60_shrink_full : ∃ (E : Env Nat) (c c1 c2 c3 c4 : Coll Nat) (w w1 w2 w3 w4 : World) (it r r' : GIter), c.Reachable E .split w ∧ c.At E it (some (2, 0)) ∧
    erase E it c w = .exc .user c1 w1 ∧ c1.size = 4 ∧ shrinkAll E c1 w1 = .ok () c2 w2 ∧ erase E it c2 w2 = .ok r c3 w3 ∧ c3.size = 3 ∧
    emplace E 4 (.emplaced 9) c3 w3 = .ok r' c4 w4 ∧ c4.size = 4 ∧ c4.map.deref r'.segpos = none := by
  refine ⟨_, Sample.w17d4, Sample.w17dx, _, _, _, _, _, _, _, _, _, _, _, Sample.w17dreach.left, ?_, Sample.w17dexc, rfl, rfl, rfl, rfl, rfl, rfl, rfl⟩
  exact ⟨rfl, rfl, rfl, _, .head _, rfl, rfl, by decide, rfl⟩

/-- Any number of failures later, the elements of a collection can be saved by copying it.  (Or by
copy assignment: `C33_assign` asks nothing of either collection.) -/
theorem C60_copy_partial (h : s.Reached E k sub H w) {i j : Nat} (hij : i ≠ j) {op : Op V} (hop : op = .copy i j ∨ (∃ al, op = .copyAl i j al) ∨ op = .assign i j) :
    Runs (op.run E k sub) s w
      (fun _ s' w' => (s' i).Reachable E k w' ∧ (∀ t, (s' i).abs.elemsOf t = (s j).abs.elemsOf t) ∧ Traversed E (s' i) (s' i).abs.flat ∧ s' j = s j)
      (fun _ s' _ => s' j = s j) := by
  have hm : Health.mark H [i] .sound i = .sound := by simp [Health.mark]
  rcases hop with rfl | ⟨al, rfl⟩ | rfl
  · refine (C33_copy h hij).mono ?_ (fun _ _ _ h => by rw [h.2.1])
    rintro _ s' w' ⟨h1, h2, -, h3, -⟩
    exact ⟨h1.coll hm, h2.elems, traversed (h1.inv hm), h3 j (Ne.symm hij)⟩
  · refine (C33_copy_allocator h hij al).mono ?_ (fun _ _ _ h => by rw [h.2.1])
    rintro _ s' w' ⟨h1, h2, -, h3, -⟩
    exact ⟨h1.coll hm, h2.elems, traversed (h1.inv hm), h3 j (Ne.symm hij)⟩
  · refine (C33_assign h hij).mono ?_ (fun _ _ _ h => h.2.2.1 j (Ne.symm hij))
    rintro _ s' w' ⟨h1, h2, h3, -⟩
    exact ⟨h1.coll hm, h2.elems, traversed (h1.inv hm), h3 j (Ne.symm hij)⟩

/-- The program of `C59_single_pass` meets the hypotheses: the failed operation is on a collection of a program that has used all
its collections as documented, and after it copying is possible. -/
example : ∃ (E : Env Nat) (sub : Ty → TI) (H : Nat → Health) (s s' : Sys Nat) (w w' : World) (i j : Nat) (op : Op Nat), s.Reached E .packed sub H w ∧ i ≠ j ∧
    WorksOn op i ∧ (∀ j ∈ op.needs, H j = .sound) ∧ op.Pre E s ∧ op.run E .packed sub s w = .exc .badAlloc s' w' ∧
    (s' i).abs = [(0, [5, 6])] ∧ ∃ H', H' i ≠ .sound ∧ s'.Reached E .packed sub H' w' := by
  obtain ⟨sub, H, s, i, j, hsub, hr, hij, hi, -, hc, -⟩ := Sample.w59reach
  have hr' : Op.run (Sample.env fun t => t == 8) .packed sub (.on i (.insertRangeTerminal false 0 [.copyExt 6, .copyExt 7])) s ⟨7, 7⟩ =
      .exc .badAlloc (s.put i Sample.w59x) ⟨8, 9⟩ := by
    simp only [Op.run, Sys.on, zoom, hc, Sample.w59exc]
  have hp : (Op.on i (.insertRangeTerminal false 0 [.copyExt 6, .copyExt 7])).Pre (Sample.env fun t => t == 8) s := by
    intro src hs
    simp only [List.mem_cons, List.not_mem_nil, or_false] at hs
    rcases hs with rfl | rfl <;> rfl
  have hn : ∀ j ∈ (Op.on i (.insertRangeTerminal false 0 [.copyExt 6, .copyExt 7])).needs, H j = .sound := by simpa [Op.needs] using hi
  exact ⟨_, sub, H, s, s.put i Sample.w59x, _, _, i, j, .on i (.insertRangeTerminal false 0 [.copyExt 6, .copyExt 7]), ⟨hsub, hr⟩, hij,
    Or.inl ⟨_, rfl⟩, hn, hp, hr', by rw [Sys.put_same]; rfl, Health.mark H [i] .hurt, by simp [Health.mark], hsub, .hurt hr _ hn hp hr' i rfl⟩

/-- So does a failed move of an `any_collection`, which leaves the segments with no elements and an index of two entries: it cannot be
traversed, but it can be cleared. -/
example : ∃ (E : Env Nat) (sub : Ty → TI) (H : Nat → Health) (s s' : Sys Nat) (w w' : World) (i : Nat) (op : Op Nat), s.Reached E .split sub H w ∧
    WorksOn op i ∧ (∀ j ∈ op.needs, H j = .sound) ∧ op.Apt E s ∧ op.run E .split sub s w = .exc .badAlloc s' w' ∧ (s i).size = 2 ∧ (s' i).size = 0 ∧
    ¬ (s' i).Inv E w' ∧ ∃ s'' w'', Op.run E .split sub (.on i .clearAll) s' w' = .ok () s'' w'' ∧ Traversed E (s'' i) [] := by
  obtain ⟨sub, H, s, i, j, hsub, hr, hij, hi, -, hc, -⟩ := Sample.w60mreach
  have hr' : Op.run (Sample.env fun t => t == 27) .split sub (.moveAl j i 7) s ⟨19, 20⟩ = .exc .badAlloc (s.put i Sample.w60mx) ⟨26, 28⟩ := by
    simp only [Op.run, if_neg (Ne.symm hij), Sys.construct, Bind.bind, Prog.bind, Sys.on, zoom, hc, Sample.w60mexc]
  have hn : ∀ x ∈ (Op.moveAl j i 7 : Op Nat).needs, H x = .sound := by simpa [Op.needs] using hi
  have hw : WorksOn (Op.moveAl j i 7 : Op Nat) i := Or.inr (Or.inr (Or.inr (Or.inr (Or.inr ⟨_, _, rfl⟩))))
  have hclear := C60_clear_partial (E := Sample.env fun t => t == 27) ⟨hsub, hr⟩ hw hn (Ne.symm hij) hr'
  refine ⟨_, sub, H, s, s.put i Sample.w60mx, _, _, i, _, ⟨hsub, hr⟩, hw, hn, Ne.symm hij, hr', by rw [hc]; rfl, by rw [Sys.put_same]; rfl, fun h => ?_, ?_⟩
  · rw [Sys.put_same] at h
    have := (h.mem.segs _ (.head _)).snt
    exact absurd this (by decide)
  · unfold Runs at hclear
    cases hx : Op.run (Sample.env fun t => t == 27) .split sub (.on i .clearAll) (s.put i Sample.w60mx) ⟨26, 28⟩ with
    | ok a s'' w'' => rw [hx] at hclear; exact ⟨s'', w'', rfl, hclear.2.2.2.2.1⟩
    | exc e s'' w'' => rw [hx] at hclear; exact hclear.elim
    | ub => rw [hx] at hclear; exact hclear.elim

end

/-- **C60 fails** if `clear()` is called only after several operations have thrown: erasing the first of two elements of an
`any_collection` throws three times (move assignment of the element type throws), each time taking an entry off the index of the
segment, and then `clear()` is undefined. -/
theorem C60_repeated : ∃ (E : Env Nat) (c c1 c2 c3 : Coll Nat) (w w1 w2 w3 : World) (op : COp Nat), c.Reachable E .split w ∧ c.abs = [(2, [5, 6])] ∧
    op.Pre E c ∧ op.run E c w = .exc .user c1 w1 ∧ op.Pre E c1 ∧ op.run E c1 w1 = .exc .user c2 w2 ∧ op.Pre E c2 ∧ op.run E c2 w2 = .exc .user c3 w3 ∧
    COp.clearAll.run E c3 w3 = .ub := by
  refine ⟨Sample.env fun t => t > 11, Sample.w60c3, Sample.w60x1, Sample.w60x2, Sample.w60x3, _, _, _, _, .eraseLocal ⟨⟨some 4, 1⟩, ⟨10, 0⟩⟩, Sample.w60reach.left, rfl,
    ?_, Sample.w60exc1, ?_, Sample.w60exc2, ?_, Sample.w60exc3, Sample.w60ub⟩
  · exact ⟨2, 0, ⟨_, ⟨List.mem_singleton.2 rfl, rfl, usable_itTo _ Sample.w60c3.map
      ⟨4, 4, ⟨.split ⟨2, 0, 0, ⟨10, 4, [5, 6]⟩, ⟨9, 5, [⟨10, 0⟩, ⟨10, 1⟩, ⟨10, 2⟩]⟩⟩, ⟨9, 2⟩⟩⟩⟩, rfl, by decide, rfl⟩, by decide⟩
  · exact ⟨2, 0, ⟨_, ⟨List.mem_singleton.2 rfl, rfl, usable_itTo _ Sample.w60x1.map
      ⟨4, 4, ⟨.split ⟨2, 0, 0, ⟨10, 4, [100, 101]⟩, ⟨9, 5, [⟨10, 0⟩, ⟨10, 1⟩]⟩⟩, ⟨9, 2⟩⟩⟩⟩, rfl, by decide, rfl⟩, by decide⟩
  · exact ⟨2, 0, ⟨_, ⟨List.mem_singleton.2 rfl, rfl, usable_itTo _ Sample.w60x2.map
      ⟨4, 4, ⟨.split ⟨2, 0, 0, ⟨10, 4, [100, 101]⟩, ⟨9, 5, [⟨10, 0⟩]⟩⟩, ⟨9, 2⟩⟩⟩⟩, rfl, by decide, rfl⟩, by decide⟩

/-- The collection of `C60_repeated`, after the three failed erasures: its index is empty, and `clear()` is undefined.  It does not have room for five elements in its
segment, so `C60_reserve_always` can be used: `reserve(5)` returns, and the loop over all elements meets what the erasures have left. -/
example : ∃ (E : Env Nat) (sub : Ty → TI) (H : Nat → Health) (s : Sys Nat) (w : World) (i : Nat), s.Reached E .split sub H w ∧ H i = .lost ∧
    (∀ m ∈ (s i).map.nodes, m.seg.capacity < 5) ∧ clearAll (s i) w = .ub ∧
    ∃ c'' w'' it, reserveAll E 5 (s i) w = .ok () c'' w'' ∧ c''.begin E = some it ∧ c''.walk E c''.end it 10 = some [100, 101] := by
  obtain ⟨sub, H, s, i, j, hsub, hr, hij, hi, -, hc, -⟩ := Sample.w60reach'
  have ha : ∀ a ∈ (Op.on i (.eraseLocal ⟨⟨some 4, 1⟩, ⟨10, 0⟩⟩) : Op Nat).args, Arg.OK Sample.E60 a := by simp [Op.args, COp.args]
  have h1 : Op.run Sample.E60 .split sub (.on i (.eraseLocal ⟨⟨some 4, 1⟩, ⟨10, 0⟩⟩)) s ⟨11, 12⟩ = .exc .user (s.put i Sample.w60x1) ⟨11, 13⟩ := by
    simp only [Op.run, Sys.on, zoom, hc, Sample.w60exc1']
  have h2 : Op.run Sample.E60 .split sub (.on i (.eraseLocal ⟨⟨some 4, 1⟩, ⟨10, 0⟩⟩)) (s.put i Sample.w60x1) ⟨11, 13⟩ =
      .exc .user ((s.put i Sample.w60x1).put i Sample.w60x2) ⟨11, 14⟩ := by
    simp only [Op.run, Sys.on, zoom, Sys.put_same, Sample.w60exc2']
  have h3 : Op.run Sample.E60 .split sub (.on i (.eraseLocal ⟨⟨some 4, 1⟩, ⟨10, 0⟩⟩)) ((s.put i Sample.w60x1).put i Sample.w60x2) ⟨11, 14⟩ =
      .exc .user (((s.put i Sample.w60x1).put i Sample.w60x2).put i Sample.w60x3) ⟨11, 15⟩ := by
    simp only [Op.run, Sys.on, zoom, Sys.put_same, Sample.w60exc3']
  refine ⟨Sample.E60, sub, _, ((s.put i Sample.w60x1).put i Sample.w60x2).put i Sample.w60x3, ⟨11, 15⟩, i,
    ⟨hsub, .lose (.lose (.lose hr _ ha (Or.inr ⟨_, h1⟩)) _ ha (Or.inr ⟨_, h2⟩)) _ ha (Or.inr ⟨_, h3⟩)⟩, ?_, ?_, ?_, ?_⟩
  · simp [Health.mark, Op.writes]
  · rw [Sys.put_same]; decide
  · rw [Sys.put_same]; exact Sample.w60ub'
  · rw [Sys.put_same]
    exact ⟨_, _, _, rfl, rfl, rfl⟩

end PolyColl.Props
