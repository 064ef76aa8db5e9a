/-
Specification: the size limits documented at css_lexer/src/lib.rs:120-137, as conditions on the source text.
-/
import Verif.Spec.Lexical

namespace Hdx.Spec

/-- The length of a text in UTF-8 bytes. -/
def byteLen (cs : List Char) : Nat := (cs.map Char.utf8Size).sum

/-- The source is shorter than 4 GiB; every number in it has fewer than 2^24 characters, and fewer than 2^12 when it may be
followed by a unit; every name that follows a number has fewer than 2^12 bytes. -/
structure WithinLimits (src : List Char) : Prop where
  total : byteLen src < 2 ^ 32
  number : ∀ pre t post, src = pre ++ (t ++ post) → LongestNumber (t ++ post) t → t.length < 2 ^ 24
  dimension : ∀ pre t post, src = pre ++ (t ++ post) → LongestNumber (t ++ post) t →
    Starts (fun c => NameChar c ∨ c = '%' ∨ c = '\\') post → t.length < 2 ^ 12
  unit : ∀ pre t us post, src = pre ++ (t ++ (nameText us ++ post)) → LongestNumber (t ++ (nameText us ++ post)) t →
    ValidName us post → byteLen (nameText us) < 2 ^ 12

/-- The texts of `//` comments (up to the end of the line) are ASCII. -/
def LineCommentsAscii (src : List Char) : Prop :=
  ∀ pre body post, src = pre ++ ('/' :: '/' :: (body ++ post)) → (∀ c ∈ body, ¬ Newline c) → ∀ c ∈ body, c.toNat < 128

end Hdx.Spec
