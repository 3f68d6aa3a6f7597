import Verif.Lemmas.Leaves
import Verif.Model.History
/-!
# Vectors stay within their limits

Whatever a program does and whatever fails, no vector of a collection gets larger than its buffer, and
no buffer larger than `max_size()`.  `Gives I Q p` says: from a state in `I`, `p` ends in `I`, and its
result is in `Q`.
-/

namespace PolyColl
open Prog

/-- `p` keeps `I`, whether it returns or throws, and returns something in `Q`. -/
structure Gives {X α : Type} (I : X → Prop) (Q : α → Prop) (p : Prog X α) : Prop where
  run : ∀ x w, 0 < w.next → I x → Leaves p x w (fun a x' w' => 0 < w'.next ∧ I x' ∧ Q a) (fun _ x' w' => 0 < w'.next ∧ I x')

/-- `p` keeps `I`, whether it returns or throws. -/
abbrev Hold {X α : Type} (I : X → Prop) (p : Prog X α) : Prop := Gives I (fun _ => True) p

namespace Gives
variable {X Y α β : Type} {I : X → Prop} {J : Y → Prop} {Q : α → Prop} {R : β → Prop}

theorem mono {p : Prog X α} {Q' : α → Prop} (h : Gives I Q p) (hq : ∀ a, Q a → Q' a) : Gives I Q' p :=
  ⟨fun x w hw hx => (h.run x w hw hx).mono (fun a _ _ g => ⟨g.1, g.2.1, hq a g.2.2⟩) (fun _ _ _ g => g)⟩

theorem hold {p : Prog X α} (h : Gives I Q p) : Hold I p := h.mono fun _ _ => trivial

theorem pure {a : α} (h : Q a) : Gives I Q (Pure.pure a : Prog X α) := ⟨fun _ _ hw hx => ⟨hw, hx, h⟩⟩
theorem raise {e : Exc} : Gives I Q (Prog.raise e : Prog X α) := ⟨fun _ _ hw hx => ⟨hw, hx⟩⟩
theorem undef : Gives I Q (Prog.undef : Prog X α) := ⟨fun _ _ _ _ => trivial⟩
theorem set {y : X} (h : I y) : Hold I (Prog.set y) := ⟨fun _ _ hw _ => ⟨hw, h, trivial⟩⟩

theorem bind {p : Prog X β} {f : β → Prog X α} (hp : Gives I R p) (hf : ∀ b, R b → Gives I Q (f b)) : Gives I Q (p >>= f) := by
  refine ⟨fun x w hw hx => leaves_bind.2 ?_⟩
  exact (hp.run x w hw hx).mono (fun b x' w' g => (hf b g.2.2).run x' w' g.1 g.2.1) (fun _ _ _ g => g)

theorem seq {p : Prog X β} {f : β → Prog X α} (hp : Hold I p) (hf : ∀ b, Gives I Q (f b)) : Gives I Q (p >>= f) := bind hp fun b _ => hf b
theorem seq' {p : Prog X β} {f : β → Prog X α} (hp : Hold I p) (hf : ∀ b, Gives I Q (f b)) : Gives I Q (Prog.bind p f) := seq hp hf

theorem bind_get {f : X → Prog X α} (hf : ∀ x, I x → Gives I Q (f x)) : Gives I Q (Prog.get >>= f) := by
  refine ⟨fun x w hw hx => leaves_bind.2 ?_⟩
  exact (hf x hx).run x w hw hx

/-- Remember something of the state that was read. -/
theorem bind_get_at (J : X → X → Prop) {f : X → Prog X α} (h1 : ∀ x, I x → J x x) (h2 : ∀ x y, J x y → I y)
    (hf : ∀ x, I x → Gives (J x) Q (f x)) : Gives I Q (Prog.get >>= f) := by
  refine ⟨fun x w hw hx => leaves_bind.2 ?_⟩
  exact ((hf x hx).run x w hw (h1 x hx)).mono (fun _ y _ g => ⟨g.1, h2 x y g.2.1, g.2.2⟩) (fun _ y _ g => ⟨g.1, h2 x y g.2⟩)

theorem ite {c : Prop} [Decidable c] {p q : Prog X α} (hp : c → Gives I Q p) (hq : ¬c → Gives I Q q) : Gives I Q (if c then p else q) := by
  split
  · next h => exact hp h
  · next h => exact hq h

theorem onExc {p : Prog X α} {h : Prog X Unit} (hp : Gives I Q p) (hh : Hold I h) : Gives I Q (Prog.onExc p h) := by
  refine ⟨fun x w hw hx => leaves_onExc.2 ?_⟩
  exact (hp.run x w hw hx).mono (fun _ _ _ g => g) (fun _ x' w' g => (hh.run x' w' g.1 g.2).mono (fun _ _ _ g => ⟨g.1, g.2.1⟩) (fun _ _ _ g => g))

theorem each {f : β → Prog X Unit} : ∀ l, (∀ b ∈ l, Hold I (f b)) → Hold I (Prog.each f l)
  | [], _ => pure trivial
  | b :: l, hf => seq (hf b (by simp)) fun _ => each l (fun b hb => hf b (by simp [hb]))

theorem mapAll {f : β → Prog X α} (hf : ∀ b, Hold I (f b)) : ∀ l, Gives I (fun r => r.length = l.length) (Prog.mapAll f l)
  | [] => pure rfl
  | b :: l => seq (hf b) fun _ => bind (mapAll hf l) fun r hr => pure (by simp [hr])

theorem zoom {gt : X → Y} {st : X → Y → X} {p : Prog Y α} (J : Y → Prop) (hp : Gives J Q p) (hi : ∀ x, I x → J (gt x))
    (hs : ∀ x y, I x → J y → I (st x y)) : Gives I Q (Prog.zoom gt st p) := by
  refine ⟨fun x w hw hx => leaves_zoom.2 ?_⟩
  exact (hp.run (gt x) w hw (hi x hx)).mono (fun _ y _ g => ⟨g.1, hs x y hx g.2.1, g.2.2⟩) (fun _ y _ g => ⟨g.1, hs x y hx g.2⟩)

theorem locally {y : Y} {p : Prog Y β} {f : β → Y → α} (J : Y → Prop) (hp : Gives J R p) (hy : J y) (hf : ∀ b y, R b → J y → Q (f b y)) :
    Gives I Q (Prog.locally y p f) := by
  refine ⟨fun x w hw hx => leaves_locally.2 ?_⟩
  exact (hp.run y w hw hy).mono (fun b y' _ g => ⟨g.1, hx, hf b y' g.2.2 g.2.1⟩) (fun _ _ _ g => ⟨g.1, hx⟩)

theorem drop {p : Prog X α} (hp : Hold I p) : Hold I p.drop := seq hp fun _ => pure trivial

theorem of_keeps {p : Prog X α} (C : Ctx X) (h : Keeps C p) (hc : ∀ x w, I x → C.I x w) (hi : ∀ x y, I x → C.T x y → I y) : Hold I p :=
  ⟨fun x w hw hx => (h.leaves (hc x w hx)).mono (fun _ _ _ g => ⟨Nat.lt_of_lt_of_le hw g.2.2, hi _ _ hx g.2.1, trivial⟩)
    (fun _ _ _ g => ⟨Nat.lt_of_lt_of_le hw g.2.2, hi _ _ hx g.2.1⟩)⟩

end Gives

/-- Programs that leave the object alone keep everything. -/
theorem Gives.of_same {X α : Type} {I : X → Prop} {p : Prog X α} (h : Keeps (sameCtx (fun x : X => x)) p) : Hold I p :=
  Gives.of_keeps _ h (fun _ _ _ => trivial) (fun x y hx e => (show y = x from e) ▸ hx)

namespace Hold
variable {X α β : Type} {I : X → Prop}

theorem pure {a : α} : Hold I (Pure.pure a : Prog X α) := Gives.pure trivial
theorem pure' {a : α} : Hold I (Prog.pure a : Prog X α) := Gives.pure trivial
theorem get : Hold I (Prog.get : Prog X X) := Gives.of_same Keeps.get
theorem world : Hold I (Prog.world : Prog X World) := Gives.of_same Keeps.world
theorem ofOption {o : Option α} : Hold I (Prog.ofOption o : Prog X α) := Gives.of_same Keeps.ofOption
theorem alloc {V : Type} {E : Env V} : Hold I (E.alloc : Prog X Nat) := Gives.of_same Keeps.alloc
/-- What is allocated is not where vectors without a buffer begin. -/
theorem allocNew {V : Type} {E : Env V} : Gives I (fun b => b ≠ 0) (E.alloc : Prog X Nat) := by
  refine ⟨fun x w hw hx => ?_⟩
  unfold Leaves Env.alloc
  split <;> rename_i h <;> split at h <;> cases h
  · exact ⟨Nat.succ_pos _, hx, by omega⟩
  · exact ⟨hw, hx⟩
theorem userOp {V : Type} {E : Env V} {b : Bool} : Hold I (E.userOp b : Prog X Unit) := Gives.of_same Keeps.userOp
theorem copyVH {V : Type} {E : Env V} {t : Ty} : Hold I (E.copyVH t : Prog X Unit) := Gives.of_same (E.copyVH_keeps t)
theorem moveVH {V : Type} {E : Env V} {t : Ty} : Hold I (E.moveVH t : Prog X Unit) := Gives.of_same (E.moveVH_keeps t)
theorem relocate {V : Type} {E : Env V} {t : Ty} {l : List V} : Hold I (E.relocate t l : Prog X Unit) := Gives.of_same (E.relocate_keeps t l)
theorem construct {V : Type} {E : Env V} {I : Vec V → Prop} {t : Ty} {src : Src V} : Hold I (E.construct t src) := Gives.of_same (E.construct_keeps t src)
theorem ofOptionGives {Q : α → Prop} {o : Option α} (h : ∀ a, o = some a → Q a) : Gives I Q (Prog.ofOption o : Prog X α) :=
  ⟨fun _ _ hw hx => leaves_ofOption.2 fun a e => ⟨hw, hx, h a e⟩⟩
theorem each {f : β → Prog X Unit} {l : List β} (hf : ∀ b, Hold I (f b)) : Hold I (Prog.each f l) := Gives.each l fun b _ => hf b

end Hold

/-- One step of `holds`. -/
syntax "hstep" : tactic
macro_rules | `(tactic| hstep) => `(tactic| with_reducible exact Hold.pure)
macro_rules | `(tactic| hstep) => `(tactic| with_reducible exact Hold.pure')
macro_rules | `(tactic| hstep) => `(tactic| with_reducible exact Gives.raise)
macro_rules | `(tactic| hstep) => `(tactic| with_reducible exact Gives.undef)
macro_rules | `(tactic| hstep) => `(tactic| with_reducible exact Hold.get)
macro_rules | `(tactic| hstep) => `(tactic| with_reducible exact Hold.world)
macro_rules | `(tactic| hstep) => `(tactic| with_reducible exact Hold.ofOption)
macro_rules | `(tactic| hstep) => `(tactic| with_reducible exact Hold.alloc)
macro_rules | `(tactic| hstep) => `(tactic| with_reducible exact Hold.userOp)
macro_rules | `(tactic| hstep) => `(tactic| with_reducible exact Hold.copyVH)
macro_rules | `(tactic| hstep) => `(tactic| with_reducible exact Hold.moveVH)
macro_rules | `(tactic| hstep) => `(tactic| with_reducible exact Hold.relocate)
macro_rules | `(tactic| hstep) => `(tactic| with_reducible exact Hold.construct)
macro_rules | `(tactic| hstep) => `(tactic| with_reducible apply Gives.seq)
macro_rules | `(tactic| hstep) => `(tactic| with_reducible apply Gives.seq')
macro_rules | `(tactic| hstep) => `(tactic| with_reducible apply Gives.bind_get)
macro_rules | `(tactic| hstep) => `(tactic| with_reducible apply Gives.ite)
macro_rules | `(tactic| hstep) => `(tactic| with_reducible apply Gives.onExc)
macro_rules | `(tactic| hstep) => `(tactic| with_reducible apply Hold.each)
macro_rules | `(tactic| hstep) => `(tactic| with_reducible apply Gives.drop)

/-- Prove `Hold` by following the structure of the program. -/
macro "holds" : tactic => `(tactic| repeat' (first | with_reducible assumption | hstep | intro _ | split))

/-! ### Vectors -/

/-- The library gives no vector a larger buffer than the vector can have elements (as long as that is
enough for what was asked for). -/
structure Env.Fits {V : Type} (E : Env V) : Prop where
  grow : ∀ m s n, n ≤ m → E.lib.growCap m s n ≤ m
  reserve : ∀ t n, n ≤ E.maxSize t → E.lib.reserveCap n ≤ E.maxSize t
  idxReserve : ∀ n, n ≤ E.idxMaxSize → E.lib.reserveCap n ≤ E.idxMaxSize
  one : ∀ t, 1 ≤ E.maxSize t

/-- The vector is not larger than its buffer, and that (if the library sees to it) not larger than `m`.
Only vectors of no capacity have no buffer. -/
structure VLim {V α : Type} (E : Env V) (m : Nat) (v : Vec α) : Prop where
  size : v.size ≤ v.cap
  nul : v.blk = 0 ↔ v.cap = 0
  max : E.Fits → v.cap ≤ m

namespace VLim
variable {V α : Type} {E : Env V} {m : Nat} {v : Vec α}

/-- Other elements in the same buffer. -/
theorem elems (h : VLim E m v) {l : List α} (hl : l.length ≤ v.cap) : VLim E m { v with elems := l } := ⟨hl, h.nul, h.max⟩

/-- A new buffer. -/
theorem fresh {b c : Nat} {l : List α} (hb : b ≠ 0) (hc : 0 < c) (hl : l.length ≤ c) (hm : E.Fits → c ≤ m) : VLim E m (⟨b, c, l⟩ : Vec α) :=
  ⟨hl, ⟨fun h => absurd h hb, fun h => absurd (show c = 0 from h) (by omega)⟩, hm⟩

theorem len (h : VLim E m v) : v.elems.length ≤ v.cap := h.size

end VLim

namespace Env
variable {V : Type} {E : Env V} {t : Ty}

theorem vlim_nil {α : Type} {m : Nat} : VLim E m (Vec.nil : Vec α) := ⟨Nat.le_refl _, Iff.rfl, fun _ => Nat.zero_le _⟩

theorem spoil_holds {m c lo hi : Nat} (hh : lo ≤ hi) (hc : hi ≤ c) : Hold (fun v => VLim E m v ∧ c ≤ v.cap) (E.spoil lo hi) := by
  refine ⟨fun v w hw hv => ?_⟩
  have : E.junkLen w.tick % (hi - lo + 1) < hi - lo + 1 := Nat.mod_lt _ (by omega)
  refine ⟨hw, ⟨hv.1.elems ?_, hv.2⟩, trivial⟩
  simp only [junkList, List.length_map, List.length_range]
  have := hv.2
  omega

theorem shift_holds {m c lo hi : Nat} {b : Bool} (hh : lo ≤ hi) (hc : hi ≤ c) : Hold (fun v => VLim E m v ∧ c ≤ v.cap) (E.shift b lo hi) := by
  unfold shift
  exact Gives.onExc Hold.userOp (spoil_holds hh hc)

theorem reserve_holds (n : Nat) : Hold (VLim E (E.maxSize t)) (E.reserve t n) := by
  unfold reserve
  refine Gives.bind_get fun s hs => Gives.ite (fun _ => Gives.raise) fun h1 => Gives.ite (fun _ => Hold.pure) fun h2 => ?_
  refine Gives.bind Hold.allocNew fun b hb => Gives.seq Hold.relocate fun _ => Gives.set ?_
  have := E.lib.reserveCap_ge n
  have := hs.len
  exact .fresh hb (by omega) (by omega) fun hf => hf.reserve t n (by omega)

theorem emplaceBack_holds' (src : Src V) (k : Nat) : Hold (fun v => VLim E (E.maxSize t) v ∧ k ≤ v.size) (E.emplaceBack t src) := by
  unfold emplaceBack
  refine Gives.bind_get fun s hs => Gives.ite (fun h1 => ?_) fun h1 => Gives.ite (fun _ => Gives.raise) fun h2 => ?_
  · refine Gives.seq Hold.construct fun v => Gives.set ⟨hs.1.elems ?_, ?_⟩
    · simp only [Vec.size, List.length_append, List.length_singleton] at *; omega
    · have := hs.2; simp only [Vec.size, List.length_append, List.length_singleton] at *; omega
  · refine Gives.bind Hold.allocNew fun b hb => Gives.seq Hold.construct fun v => Gives.seq Hold.relocate fun _ => Gives.set ⟨?_, ?_⟩
    · have := E.lib.growCap_ge (E.maxSize t) s.size (s.size + 1)
      exact .fresh hb (by omega) (by simpa [Vec.size] using this) fun hf => hf.grow (E.maxSize t) s.size (s.size + 1) (by omega)
    · have := hs.2; simp only [Vec.size, List.length_append, List.length_singleton] at *; omega

theorem emplaceBack_holds (src : Src V) : Hold (VLim E (E.maxSize t)) (E.emplaceBack t src) := by
  refine ⟨fun v w hw hv => ?_⟩
  exact ((emplaceBack_holds' src 0).run v w hw ⟨hv, Nat.zero_le _⟩).mono (fun _ _ _ g => ⟨g.1, g.2.1.1, trivial⟩) (fun _ _ _ g => ⟨g.1, g.2.1⟩)

theorem insertIdx_le {α : Type} (l : List α) (n : Nat) (a : α) : (l.insertIdx n a).length ≤ l.length + 1 := by
  rw [List.length_insertIdx]; split <;> omega

theorem emplaceAt_holds (n : Nat) (src : Src V) : Hold (VLim E (E.maxSize t)) (E.emplaceAt t n src) := by
  unfold emplaceAt
  refine ⟨fun s w hw hs => leaves_bind.2 (leaves_get.2 (leaves_ite.2 ⟨fun _ => trivial, fun h0 => leaves_ite.2 ⟨fun _ => ?_, fun h1 => ?_⟩⟩))⟩
  · exact (emplaceBack_holds src).run s w hw hs
  suffices hh : Hold (fun v => VLim E (E.maxSize t) v ∧ s.cap ≤ v.cap) _ from
    (hh.run s w hw ⟨hs, Nat.le_refl _⟩).mono (fun _ _ _ g => ⟨g.1, g.2.1.1, trivial⟩) (fun _ _ _ g => ⟨g.1, g.2.1⟩)
  refine Gives.ite (fun h2 => ?_) fun h2 => Gives.ite (fun _ => Gives.raise) fun h3 => ?_
  · refine Gives.seq Hold.construct fun v => Gives.seq (shift_holds (by omega) (by omega)) fun _ => Gives.set ⟨hs.elems ?_, Nat.le_refl _⟩
    have := insertIdx_le s.elems n v
    simp only [Vec.size] at *; omega
  · refine Gives.bind Hold.allocNew fun b hb => Gives.seq Hold.construct fun v => Gives.seq Hold.relocate fun _ => Gives.set ?_
    have := E.lib.growCap_ge (E.maxSize t) s.size (s.size + 1)
    have := insertIdx_le s.elems n v
    have := hs.size
    refine ⟨.fresh hb (by omega) (by simp only [Vec.size] at *; omega) fun hf => hf.grow (E.maxSize t) s.size (s.size + 1) (by omega), ?_⟩
    simp only [Vec.size] at *; omega

theorem insertRange_holds (n : Nat) (srcs : List (Src V)) : Hold (VLim E (E.maxSize t)) (E.insertRange t n srcs) := by
  unfold insertRange
  refine Gives.bind_get_at (fun s v => VLim E (E.maxSize t) v ∧ s.cap ≤ v.cap) (fun x h => ⟨h, Nat.le_refl _⟩) (fun _ _ h => h.1) fun s hs => ?_
  refine Gives.ite (fun _ => Gives.undef) fun h0 => Gives.ite (fun _ => Hold.pure) fun h1 => Gives.ite (fun h2 => ?_) fun h2 =>
    Gives.ite (fun _ => Gives.raise) fun h3 => ?_
  · refine Gives.ite (fun h3 => ?_) fun h3 => ?_
    · refine Gives.bind (Gives.mapAll (fun _ => Hold.construct) srcs) fun vs hl => Gives.set ⟨hs.elems ?_, Nat.le_refl _⟩
      simp only [Vec.size, List.length_append] at *
      omega
    · refine Gives.bind (Gives.onExc (Gives.seq Hold.userOp fun _ => Gives.mapAll (fun _ => Hold.construct) srcs) (spoil_holds (by omega) h2)) fun vs hl =>
        Gives.set ⟨hs.elems ?_, Nat.le_refl _⟩
      simp only [Vec.size, List.length_append, List.length_take, List.length_drop] at *
      omega
  · refine Gives.bind Hold.allocNew fun b hb => Gives.bind (Gives.mapAll (fun _ => Hold.construct) srcs) fun vs hl => Gives.seq Hold.relocate fun _ => Gives.set ?_
    have := E.lib.growCap_ge (E.maxSize t) s.size (s.size + srcs.length)
    have := hs.size
    refine ⟨.fresh hb (by omega) ?_ fun hf => hf.grow (E.maxSize t) s.size (s.size + srcs.length) (by omega), ?_⟩
    · simp only [Vec.size, List.length_append, List.length_take, List.length_drop] at *
      omega
    · simp only [Vec.size] at *; omega

theorem insertInput_holds (n : Nat) (srcs : List (Src V)) : Hold (VLim E (E.maxSize t)) (E.insertInput t n srcs) := by
  unfold insertInput
  refine ⟨fun s w hw h => leaves_bind.2 (leaves_get.2 (leaves_ite.2 ⟨fun _ => trivial, fun h0 => leaves_ite.2 ⟨fun _ => ?_, fun _ => ?_⟩⟩))⟩
  · exact (Gives.seq (Gives.locally (R := fun _ => True) (Q := fun _ => True) (VLim E (E.maxSize t)) (Hold.each fun src => emplaceBack_holds src) vlim_nil fun _ _ _ _ => trivial)
      fun vs => insertRange_holds n _).run s w hw h
  suffices hh : Hold (fun v => VLim E (E.maxSize t) v ∧ s.size ≤ v.size) _ from
    (hh.run s w hw ⟨h, Nat.le_refl _⟩).mono (fun _ _ _ g => ⟨g.1, g.2.1.1, trivial⟩) (fun _ _ _ g => ⟨g.1, g.2.1⟩)
  refine Gives.seq (Hold.each fun src => emplaceBack_holds' src s.size) fun _ => ?_
  refine Gives.bind_get_at (fun s' v => (VLim E (E.maxSize t) v ∧ s'.cap ≤ v.cap) ∧ s.size ≤ v.size) (fun x h => ⟨⟨h.1, Nat.le_refl _⟩, h.2⟩) (fun _ _ h => ⟨h.1.1, h.2⟩) fun s' hs' => ?_
  have h1 := hs'.1.size
  have h2 := hs'.2
  refine Gives.seq ?_ fun _ => Gives.set ?_
  · unfold shift
    refine Gives.onExc Hold.userOp ⟨fun v w hw hv => ?_⟩
    obtain ⟨⟨a, c⟩, d⟩ := hv
    refine ⟨hw, ⟨⟨a.elems ?_, c⟩, ?_⟩, trivial⟩
    · simp only [junkList, List.length_map, List.length_range]
      rw [Nat.sub_self, Nat.zero_add, Nat.mod_one]; omega
    · simp only [Vec.size, junkList, List.length_map, List.length_range] at *; omega
  · refine ⟨⟨hs'.1.elems ?_, Nat.le_refl _⟩, ?_⟩ <;> simp only [Vec.size, List.length_append, List.length_take, List.length_drop] at * <;> omega

theorem eraseRange_holds (a b : Nat) : Hold (VLim E (E.maxSize t)) (E.eraseRange t a b) := by
  unfold eraseRange
  refine Gives.bind_get_at (fun s v => VLim E (E.maxSize t) v ∧ s.cap ≤ v.cap) (fun x h => ⟨h, Nat.le_refl _⟩) (fun _ _ h => h.1) fun s hs => ?_
  refine Gives.ite (fun h => Gives.seq (shift_holds (Nat.le_refl _) hs.size) fun _ => Gives.set ⟨hs.elems ?_, Nat.le_refl _⟩) fun _ => Gives.undef
  have := hs.size
  simp only [Vec.size, List.length_append, List.length_take, List.length_drop] at *
  omega

theorem eraseAt_holds (n : Nat) : Hold (VLim E (E.maxSize t)) (E.eraseAt t n) := by
  unfold eraseAt
  exact Gives.bind_get fun s _ => Gives.ite (fun _ => eraseRange_holds n (n + 1)) fun _ => Gives.undef

theorem clearVec_holds {m : Nat} : Hold (VLim E m) (clearVec : Prog (Vec V) Unit) :=
  Gives.bind_get fun _ hs => Gives.set (hs.elems (Nat.zero_le _))

theorem shrinkToFit_holds : Hold (VLim E (E.maxSize t)) (E.shrinkToFit t) := by
  unfold shrinkToFit
  refine Gives.bind_get fun s hs => ?_
  have h1 := E.lib.shrinkCap_ge s.size s.cap hs.size
  have h2 := E.lib.shrinkCap_le s.size s.cap hs.size
  refine Gives.ite (fun _ => Hold.pure) fun _ => Gives.ite (fun h => Gives.set ⟨?_, Iff.intro (fun _ => rfl) (fun _ => rfl), fun _ => Nat.zero_le _⟩) fun h => ?_
  · rw [h] at h1; exact h1
  · exact Gives.bind Hold.allocNew fun b hb => Gives.seq Hold.relocate fun _ => Gives.set (.fresh hb (by omega) h1 fun hf => Nat.le_trans h2 (hs.max hf))

theorem copyVec_gives {X : Type} {I : X → Prop} {s : Vec V} (h : VLim E (E.maxSize t) s) : Gives I (VLim E (E.maxSize t)) (E.copyVec t s) := by
  unfold copyVec
  refine Gives.ite (fun _ => Gives.pure vlim_nil) fun he => Gives.bind Hold.allocNew fun b hb => Gives.seq (Hold.each fun _ => Hold.copyVH) fun _ => Gives.pure ?_
  exact .fresh hb (List.length_pos_iff.2 he) (Nat.le_refl _) fun hf => Nat.le_trans h.size (h.max hf)

theorem moveVec_gives (b : Bool) : Gives (VLim E (E.maxSize t)) (VLim E (E.maxSize t)) (E.moveVec t b) := by
  unfold moveVec
  refine Gives.bind_get_at (fun s v => VLim E (E.maxSize t) v ∧ (s.cap ≤ v.cap ∨ b = true)) (fun x h => ⟨h, .inl (Nat.le_refl _)⟩) (fun _ _ h => h.1) fun s hs => ?_
  refine Gives.ite (fun hb => Gives.seq (Gives.set ⟨vlim_nil, .inr hb⟩) fun _ => Gives.pure hs) fun hb => Gives.ite (fun _ => Gives.pure vlim_nil) fun he => ?_
  have e : (fun v : Vec V => VLim E (E.maxSize t) v ∧ (s.cap ≤ v.cap ∨ b = true)) = fun v => VLim E (E.maxSize t) v ∧ s.cap ≤ v.cap := by
    funext v; simp only [hb]; simp
  rw [e]
  refine Gives.bind Hold.allocNew fun b hb => Gives.seq (Gives.onExc (Hold.each fun _ => Hold.moveVH) (spoil_holds (Nat.le_refl _) hs.size)) fun _ =>
    Gives.seq (Gives.set ⟨hs.elems (Nat.zero_le _), Nat.le_refl _⟩) fun _ => Gives.pure (.fresh hb (List.length_pos_iff.2 he) (Nat.le_refl _) fun hf => Nat.le_trans hs.size (hs.max hf))

theorem idxReserve_holds (n : Nat) : Hold (VLim E E.idxMaxSize) (E.idxReserve n) := by
  unfold idxReserve
  refine Gives.bind_get fun s hs => Gives.ite (fun _ => Gives.raise) fun h1 => Gives.ite (fun _ => Hold.pure) fun h2 => ?_
  refine Gives.bind Hold.allocNew fun b hb => Gives.set ?_
  have := E.lib.reserveCap_ge n
  have := hs.len
  exact .fresh hb (by omega) (by omega) fun hf => hf.idxReserve n (by omega)

theorem idxPushBack_holds (p : Ptr) : Hold (VLim E E.idxMaxSize) (E.idxPushBack p) := by
  unfold idxPushBack
  refine Gives.bind_get fun s hs => Gives.ite (fun h1 => Gives.set (hs.elems ?_)) fun h1 => Gives.ite (fun _ => Gives.raise) fun h2 => ?_
  · simp only [Vec.size, List.length_append, List.length_singleton] at *
    omega
  · refine Gives.bind Hold.allocNew fun b hb => Gives.set ?_
    have := E.lib.growCap_ge E.idxMaxSize s.size (s.size + 1)
    exact .fresh hb (by omega) (by simpa [Vec.size] using this) fun hf => hf.grow E.idxMaxSize s.size (s.size + 1) (by omega)

end Env

variable {V : Type} {E : Env V}

theorem idxPopBack_holds {m : Nat} : Hold (VLim E m) idxPopBack := by
  refine Gives.bind_get fun s hs => Gives.ite (fun _ => Gives.undef) fun _ => Gives.set (hs.elems ?_)
  have := hs.len
  simp only [List.length_dropLast]
  omega

theorem idxClear_holds {m : Nat} : Hold (VLim E m) idxClear :=
  Gives.bind_get fun _ hs => Gives.set (hs.elems (Nat.zero_le _))

end PolyColl
