import Verif.Base

/-!
# Model of weave/src/matrix/forest

`HashSet<Vec<T>>` is a `Finset (List T)`; wherever the code iterates a hash set (sequentially or
through rayon) the model takes an enumeration order `HashOrder`, which theorems quantify over.
-/

namespace Verif.Matrix

open Verif

universe u
variable {T : Type u} [LinearOrder T]

/-- weave/src/matrix/forest/mod.rs:13-18.  `#[derive(Eq, PartialEq)]` is structural equality of the
variants (`HashSet` equality is equality as sets). -/
inductive Forest (T : Type u) [LinearOrder T] where
  | Empty
  | Unit (set : List T)
  | Many (matrix : Finset (List T))
deriving DecidableEq

namespace Forest

/-- weave/src/matrix/forest/mod.rs:46-48 -/
def empty : Forest T := .Empty

/-- weave/src/matrix/forest/mod.rs:50-52 -/
def unit (set : List T) : Forest T := .Unit (filterRepeats set)

/-- weave/src/matrix/forest/mod.rs:54-68 -/
def many : List (List T) → Forest T
  | [] => empty
  | [s] => unit s
  | m => .Many (uniq (m.map filterRepeats)).toFinset

/-- weave/src/matrix/forest/mod.rs:70-77 -/
def unique (set : List T) : Forest T := many (set.map (fun e => [e]))

/-- weave/src/matrix/forest/mod.rs:83-89 -/
def len : Forest T → Nat
  | .Empty => 0
  | .Unit _ => 1
  | .Many m => m.card

/-- weave/src/matrix/forest/mod.rs:91-96 -/
def isEmpty : Forest T → Bool
  | .Empty => true
  | _ => false

/-- weave/src/matrix/forest/mod.rs:98-116.  `mo` is the iteration order of the counting `HashMap`
(its entries in any order), `h` the iteration order of the matrix. -/
def occurrences (h : HashOrder (List T)) (mo : HashOrder (T × Nat)) : Forest T → List (T × Nat)
  | .Empty => []
  | .Unit set => set.map (fun i => (i, 1))
  | .Many m => sortByKey (mo.iter (countMap (h.iter m).flatten).toFinset)

/-- `Into<Vec<Vec<T>>>`, weave/src/matrix/forest/mod.rs:20-43; this is also `Forest::trees` of the
trait implementation, weave/src/matrix/mod.rs. -/
def trees (h : HashOrder (List T)) : Forest T → List (List T)
  | .Empty => []
  | .Unit set => [set]
  | .Many m => h.iter m

/-- weave/src/matrix/forest/intersect.rs:7-24 -/
def intersect (h : HashOrder (List T)) (f1 f2 : Forest T) : Forest T :=
  if f1 = f2 then f1 else
  match f1, f2 with
  | _, .Empty => empty
  | .Empty, _ => empty
  | .Many m, .Unit s => if s ∈ m then f2 else empty
  | .Unit s, .Many m => if s ∈ m then f1 else empty
  | .Many m1, .Many m2 => many (h.iter (m1 ∩ m2))
  | .Unit _, .Unit _ => empty

/-- weave/src/matrix/forest/union.rs:7-45 -/
def union (h : HashOrder (List T)) (f1 f2 : Forest T) : Forest T :=
  if f1 = f2 then f1 else
  match f1, f2 with
  | _, .Empty => f1
  | .Empty, _ => f2
  | .Unit s1, .Unit s2 => many [s1, s2]
  | .Many m, .Unit s => many (h.iter m ++ [s])
  | .Unit s, .Many m => many (h.iter m ++ [s])
  | .Many m1, .Many m2 =>
    if m1 ⊆ m2 then f2
    else if m2 ⊆ m1 then f1
    else many (h.iter (m1 ∪ m2))

/-- weave/src/matrix/forest/product.rs:38-47 -/
def manyToMatrix (h : HashOrder (List T)) (matrix : Finset (List T)) (set2 : List T) : Forest T :=
  many ((h.iter matrix).map (fun set1 => set1 ++ set2))

/-- weave/src/matrix/forest/product.rs:7-36; `h1`, `h2` are the iteration orders of the two
matrices. -/
def product (h1 h2 : HashOrder (List T)) (f1 f2 : Forest T) : Forest T :=
  match f1, f2 with
  | _, .Empty => empty
  | .Empty, _ => empty
  | .Unit s1, .Unit s2 => unit (s1 ++ s2)
  | .Many m, .Unit s => manyToMatrix h1 m s
  | .Unit s, .Many m => manyToMatrix h2 m s
  | .Many m1, .Many m2 =>
    many ((h1.iter m1).flatMap (fun set1 => (h2.iter m2).map (fun set2 => set1 ++ set2)))

/-- weave/src/matrix/forest/subset.rs:5-18 -/
def subset (h : HashOrder (List T)) (f : Forest T) (element : T) : Forest T :=
  match f with
  | .Unit s => if element ∈ s then f else empty
  | .Many m => many ((h.iter m).filter (fun s => decide (element ∈ s)))
  | .Empty => empty

/-- weave/src/matrix/forest/subset.rs:20-33 -/
def subsetNot (h : HashOrder (List T)) (f : Forest T) (element : T) : Forest T :=
  match f with
  | .Unit s => if element ∉ s then f else empty
  | .Many m => many ((h.iter m).filter (fun s => !decide (element ∈ s)))
  | .Empty => empty

/-- weave/src/matrix/forest/subset.rs:35-57 -/
def subsetAll (h : HashOrder (List T)) (f : Forest T) (elements : List T) : Forest T :=
  if elements.isEmpty then f else
  match f with
  | .Unit s => if elements.all (fun e => decide (e ∈ s)) then f else empty
  | .Many m => many ((h.iter m).filter (fun s => elements.all (fun e => decide (e ∈ s))))
  | .Empty => empty

/-- weave/src/matrix/forest/subset.rs:59-81 -/
def subsetNone (h : HashOrder (List T)) (f : Forest T) (elements : List T) : Forest T :=
  if elements.isEmpty then f else
  match f with
  | .Unit s => if elements.all (fun e => !decide (e ∈ s)) then f else empty
  | .Many m => many ((h.iter m).filter (fun s => elements.all (fun e => !decide (e ∈ s))))
  | .Empty => empty

end Forest
end Verif.Matrix
