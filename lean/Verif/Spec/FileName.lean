import Mathlib.Data.List.Basic

/-!
File names as people read them, for C116.
-/

namespace PV.Spec

/-- A name in a directory: not empty, without slashes, and not one of the two names every directory
has. -/
structure FileName (c : List Char) : Prop where
  nonempty : c ≠ []
  slash : '/' ∉ c
  dot : c ≠ ['.']
  dots : c ≠ ['.', '.']

/-- The name is `stem` followed by the extension `ext`, which begins with the last dot. Dots at the
beginning of a name (hidden files) begin no extension; a name without extension is its own stem. -/
def NameParts (name stem ext : List Char) : Prop :=
  name = stem ++ ext ∧
    ((∃ e, ext = '.' :: e ∧ '.' ∉ e ∧ ∃ x ∈ stem, x ≠ '.') ∨
      (ext = [] ∧ ∀ s e, name = s ++ '.' :: e → '.' ∉ e → ∀ x ∈ s, x = '.'))

end PV.Spec
