import Mathlib.Logic.Basic

/-!
# Specification: attributes of an object

An attribute of objects of type `σ` is something that can be read and assigned. None of these definitions refers to a
model of the code.
-/

namespace Verif.Spec

/-- Reading after assigning gives the assigned value, assigning twice is assigning once, and assigning the value that
is there changes nothing. -/
structure Attribute {σ α : Type} (get : σ → α) (set : σ → α → σ) : Prop where
  read : ∀ o v, get (set o v) = v
  last : ∀ o u v, set (set o u) v = set o v
  idle : ∀ o, set o (get o) = o

/-- Assigning one attribute leaves what `get` reads alone. -/
def Untouched {σ α β : Type} (get : σ → α) (set : σ → β → σ) : Prop := ∀ o v, get (set o v) = get o

end Verif.Spec
