import Verif.Model.Memory
import Verif.Spec.Defaults
/-!
# Documents in memory

Which value a piece of memory stands for, what can be reached from it, and goroutines working in one memory.
-/
namespace Jsval

/-- Neither a container nor a pointer. -/
def IsAtom : GoVal → Prop
  | .slice _ _ => False
  | .map _ _ => False
  | .struct _ => False
  | .ptr _ => False
  | .iface _ => False
  | _ => True

mutual
/-- `Holds H h v L`: in the memory `H`, `h` is the value `v`. `L` lists the maps met on the way, as often as they are met. -/
inductive Holds (H : Memory) : MVal → GoVal → List Nat → Prop where
  | atom (a) : IsAtom a → Holds H (.atom a) a []
  | nilMap : Holds H (.map none) (.map true []) []
  | slice (n xs vs L) : HoldsAll H xs vs L → Holds H (.slice n xs) (.slice n vs) L
  | map (l kvs L) : HoldsEntries H (H l) kvs L → Holds H (.map (some l)) (.map false kvs) (l :: L)

/-- The same for the elements of a slice. -/
inductive HoldsAll (H : Memory) : List MVal → List GoVal → List Nat → Prop where
  | nil : HoldsAll H [] [] []
  | cons (x xs v vs L L') : Holds H x v L → HoldsAll H xs vs L' → HoldsAll H (x :: xs) (v :: vs) (L ++ L')

/-- The same for the entries of a map. -/
inductive HoldsEntries (H : Memory) : List (GoStr × MVal) → List (GoStr × GoVal) → List Nat → Prop where
  | nil : HoldsEntries H [] [] []
  | cons (k x es v kvs L L') : Holds H x v L → HoldsEntries H es kvs L' → HoldsEntries H ((k, x) :: es) ((k, v) :: kvs) (L ++ L')
end

/-- `v` in memory, no map occurring twice. -/
def HoldsTree (H : Memory) (h : MVal) (v : GoVal) : Prop := ∃ L, L.Nodup ∧ Holds H h v L

/-- `v` in memory, maps possibly shared. -/
def HoldsShared (H : Memory) (h : MVal) (v : GoVal) : Prop := ∃ L, Holds H h v L

/-- Maps that occur in a value, not counting what is in them. -/
inductive MVal.Mentions : MVal → Nat → Prop where
  | map (l) : Mentions (.map (some l)) l
  | slice {n xs x l} : x ∈ xs → Mentions x l → Mentions (.slice n xs) l

/-- Maps that can be reached from a value. -/
inductive CanReach (H : Memory) (h : MVal) : Nat → Prop where
  | here {l} : h.Mentions l → CanReach H h l
  | inside {l k x l'} : CanReach H h l → (k, x) ∈ H l → x.Mentions l' → CanReach H h l'

/-- `fmt.Sprintf("%s", …)` on documents in memory prints what they hold, and looks at nothing else. -/
structure Shows (ext : Ext) (show_ : Memory → MVal → GoStr) : Prop where
  faithful : ∀ H h v, HoldsShared H h v → show_ H h = ext.sprint v
  local' : ∀ H H' h, (∀ l, CanReach H h l → H l = H' l) → show_ H h = show_ H' h

/-- Scalars among the defaults are held directly. -/
def HoldsAtoms (mem : GoVal → MVal) : Prop := ∀ a, IsAtom a → mem a = .atom a

/-! ## Goroutines -/

/-- One operation of a program. -/
def Prog.step {α : Type} (show_ : Memory → MVal → GoStr) : Prog α → Memory → Option (Prog α × Memory)
  | .ret _, _ => none
  | .look l p k, H => some (k (alookup p (H l)), H)
  | .keys l k, H => some (k ((H l).map (·.1)), H)
  | .set l p x k, H => some (k, H.put l p x)
  | .sprint h k, H => some (k (show_ H h), H)

/-- Goroutine number `i` does one operation. -/
inductive Together {α : Type} (show_ : Memory → MVal → GoStr) : (Nat → Prog α) × Memory → (Nat → Prog α) × Memory → Prop where
  | step (ps H i p' H') : (ps i).step show_ H = some (p', H') → Together show_ (ps, H) (fun j => if j = i then p' else ps j, H')

/-- Any number of operations, in any order. -/
inductive TogetherStar {α : Type} (show_ : Memory → MVal → GoStr) (s : (Nat → Prog α) × Memory) : (Nat → Prog α) × Memory → Prop where
  | refl : TogetherStar show_ s s
  | tail {s' s''} : TogetherStar show_ s s' → Together show_ s' s'' → TogetherStar show_ s s''

/-- The same, counting the operations. -/
inductive TogetherIn {α : Type} (show_ : Memory → MVal → GoStr) (s : (Nat → Prog α) × Memory) : Nat → (Nat → Prog α) × Memory → Prop where
  | refl : TogetherIn show_ s 0 s
  | tail {n s' s''} : TogetherIn show_ s n s' → Together show_ s' s'' → TogetherIn show_ s (n + 1) s''

/-- The next operation reads or writes this map. -/
def Prog.Touches {α : Type} (H : Memory) (l : Nat) : Prog α → Prop
  | .ret _ => False
  | .look l' _ _ => l' = l
  | .keys l' _ => l' = l
  | .set l' _ _ _ => l' = l
  | .sprint h _ => CanReach H h l

/-- The next operation writes this map. -/
def Prog.Writes {α : Type} (l : Nat) : Prog α → Prop
  | .set l' _ _ _ => l' = l
  | _ => False

/-- Two goroutines are about to use one map, one of them for writing: a data race, on which Go programs may crash. -/
def Racing {α : Type} (s : (Nat → Prog α) × Memory) : Prop := ∃ i j l, i ≠ j ∧ (s.1 i).Touches s.2 l ∧ (s.1 j).Writes l

/-- Goroutine `i` validates `h i` with `c i`. -/
def calls (ext : Ext) (mem : GoVal → MVal) (env : Nat → Env) (fuel : Nat → Nat) (c : Nat → Constraint) (σ : Nat → Sched) (h : Nat → MVal) : Nat → Prog Res :=
  fun i => (semM ext mem (env i) (fuel i) (c i)).val (σ i) (h i)

/-- No constraint fills anything in. -/
def Undefaulted (c : Constraint) : Prop := DefaultIn (fun _ => False) c

end Jsval
