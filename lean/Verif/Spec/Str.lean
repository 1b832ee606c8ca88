/-!
# Specification vocabulary for strings

Independent of the model: plain list notions over bytes.
-/

namespace Verif.Spec.Str

/-- ASCII lower case of one byte. -/
def lowerB (b : UInt8) : UInt8 := if 65 ≤ b ∧ b ≤ 90 then b + 32 else b

/-- ASCII upper case of one byte. -/
def upperB (b : UInt8) : UInt8 := if 97 ≤ b ∧ b ≤ 122 then b - 32 else b

/-- Two names are the same up to ASCII letter case. -/
def SameName (a b : List UInt8) : Prop := a.map lowerB = b.map lowerB

instance (a b : List UInt8) : Decidable (SameName a b) := by unfold SameName; infer_instance

/-- Tokens and the separator characters between them, put back together. -/
def weave : List (List UInt8) → List UInt8 → List UInt8
  | [], _ => []
  | [t], _ => t
  | t :: ts, [] => t ++ weave ts []
  | t :: ts, c :: cs => t ++ c :: weave ts cs

/-- `Replaced tok sub s r`: `r` is `s` with the left-to-right, non-overlapping occurrences of `tok` replaced. -/
inductive Replaced (tok sub : List UInt8) : List UInt8 → List UInt8 → Prop where
  | nil : Replaced tok sub [] []
  | hit {s r} : Replaced tok sub s r → Replaced tok sub (tok ++ s) (sub ++ r)
  | miss {c s r} : ¬ tok <+: c :: s → Replaced tok sub s r → Replaced tok sub (c :: s) (c :: r)

/-- The length a caller asks `STRsubStr` for, given the length of the string: negative lengths count from the end. -/
def askedLen (L len : Int) : Int := if len < 0 then L + len else len

/-- Arguments for which the documented slice exists and can be computed in `int`. -/
def SliceOk (L start len : Int) : Prop :=
  -(2 ^ 31) ≤ start + askedLen L len ∧ start + askedLen L len < 2 ^ 31 ∧
    (L < start ∨ (0 ≤ start ∧ 0 ≤ askedLen L len))

/-- The documented slice. -/
def slice (s : List UInt8) (start len : Int) : List UInt8 :=
  (s.drop start.toNat).take (askedLen s.length len).toNat

end Verif.Spec.Str
