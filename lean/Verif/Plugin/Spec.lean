import Verif.Plugin.Model

/-! # Specification of the plugin manager -/
namespace Verif.Plugin
open Verif.StrMap

/-- The library for an identifier: that of the last file with this identifier and the right
type. -/
def found (files : List File) (id : S) : Option (Option Nat) :=
  match files.reverse.find? (fun f => f.rightType && f.ident == some id) with
  | some f => some f.handle
  | none => none

/-- The plugin added by the program under an identifier, after a history (newest first). -/
def staticAt (id : S) : List Op → Option Nat
  | [] => none
  | .addStatic id' k :: h => if id' = id then some k else staticAt id h
  | .removeStatic id' :: h => if id' = id then none else staticAt id h
  | _ :: h => staticAt id h

/-- In this history plugins are only looked up that exist, and objects are only made from
libraries that were found. -/
def KnownOnly (env : Env) : List Op → Prop
  | [] => True
  | .plugin id :: h => (staticAt id h ≠ none ∨ found env.files id ≠ none) ∧ KnownOnly env h
  | .create id :: h => found env.files id ≠ none ∧ KnownOnly env h
  | _ :: h => KnownOnly env h

/-- Ascending without duplicates. -/
def Ascending (l : List S) : Prop := l.Pairwise (· < ·)

end Verif.Plugin
