import Verif.Ext.Model

/-
What the extension system is meant to do: each graph has a list of extensions, the latest first.
-/
namespace Verif.Props
open Verif Verif.Ext

/-- An extension: the module, its context and the table entries it overloads. -/
structure AExt where
  m : Nat
  c : Nat
  S : List Nat

/-- The intended state: the extensions of each graph, which modules have been given an identifier, and
which graphs have extensions made by copying. -/
structure AState where
  exts : Nat → List AExt := fun _ => []
  known : Nat → Prop := fun _ => False
  copied : Nat → Prop := fun _ => False

/-- The intended effect of an operation and the code it returns. -/
inductive AStep : AState → Ext.Op → Res → AState → Prop
  | attachTwice {a g m c S ok} : (∃ x ∈ a.exts g, x.m = m) → AStep a (.attach g m c S ok) .notok a
  | attachFail {a g m c S} : (∀ x ∈ a.exts g, x.m ≠ m) →
      AStep a (.attach g m c S false) .notok { a with known := fun n => n = m ∨ a.known n }
  | attach {a g m c S} : (∀ x ∈ a.exts g, x.m ≠ m) → AStep a (.attach g m c S true) .ok
      { a with known := fun n => n = m ∨ a.known n, exts := Function.update a.exts g (⟨m, c, S⟩ :: a.exts g) }
  | removeUnknown {a g m} : ¬ a.known m → AStep a (.remove g m) .notok a
  | remove {a g m} : a.known m → AStep a (.remove g m) .ok
      { a with exts := Function.update a.exts g ((a.exts g).filter (fun x => decide (x.m ≠ m))) }
  | free {a g} : AStep a (.free g) .ok
      { a with exts := Function.update a.exts g [], copied := Function.update a.copied g False }
  | copyFail {a d src addrs i} : i < (a.exts src).length → AStep a (.copy d src addrs (some i)) .notok
      { a with exts := Function.update a.exts d [], copied := Function.update a.copied d False }
  | copy {a d src addrs fail} : (∀ i, fail = some i → (a.exts src).length ≤ i) → AStep a (.copy d src addrs fail) .ok
      { a with
        exts := Function.update a.exts d (List.zipWith (fun x c => ⟨x.m, c, x.S⟩) (a.exts src) addrs)
        copied := Function.update a.copied d True }

/-- Intended results of a sequence of operations. -/
inductive ARun : AState → List Ext.Op → List Res → AState → Prop
  | nil {a} : ARun a [] [] a
  | cons {a a' a'' op ops r rs} : AStep a op r a' → ARun a' ops rs a'' → ARun a (op :: ops) (r :: rs) a''

/-- The functions a call through table entry `k` should run: the overloads of the extensions present, latest first, and then the
core function. -/
def chainOf (L : List AExt) (k : Nat) : List Fn :=
  (L.filter (fun x => decide (k ∈ x.S))).map (fun x => .over x.m k) ++ [.core k]

/-- The context of module `m`, if present. -/
def contextOf (L : List AExt) (m : Nat) : Option Nat := (L.find? (fun x => decide (x.m = m))).map AExt.c

/-- No operation on the list copies extensions from graph to graph. -/
def NoCopy (ops : List Ext.Op) : Prop := ∀ op ∈ ops, ∀ d src addrs fail, op ≠ .copy d src addrs fail

/-- No extension is removed from a graph whose extensions were made by copying. -/
def NoRemoveFromCopy (ops : List Ext.Op) : Prop :=
  ∀ pre g m post, ops = pre ++ .remove g m :: post → ∀ rs a, ARun {} pre rs a → ¬ a.copied g

end Verif.Props
