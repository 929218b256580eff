import Verif.Model.Tools

/-!
# Specification: programs that copy bytes
-/

namespace Mctp.Spec

open Mctp

/-- The standard input: the bytes the reads of it return (at most 1024 at a time), up to its end or the first error. -/
def stdinOf : List Turn → List Byte
  | [] => []
  | t :: rest =>
    match t.stdin with
    | none => stdinOf rest
    | some none => []
    | some (some []) => []
    | some (some (x :: xs)) => (x :: xs).take 1024 ++ stdinOf rest

end Mctp.Spec
