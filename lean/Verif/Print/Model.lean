import Mathlib.Data.Nat.Digits.Defs
/-
  Model of include/common_robotics_utilities/print.hpp. Text is a list of characters. A floating-point number is represented by the
  text `operator<<` makes of it (digits, sign, point, exponent, `inf`, `nan`): the formatting of numbers is the standard library's.
  `Print(std::forward_list)` (504-546) is left out: it calls `size()`, which `std::forward_list` does not have, so that no use of it
  compiles.
-/
namespace CRU.Print

/-- print.hpp:27: a `std::string`. -/
abbrev Text := List Char

/-- print.hpp:27-964: the text of a string literal. -/
def lit (s : String) : Text := s.toList

/-- The characters numbers and booleans are made of (print.hpp:27-37 `strm << toprint`). -/
def plain (c : Char) : Bool := c.isAlphanum || c == '+' || c == '-' || c == '.'

/-- What `operator<<` makes of a `double` (print.hpp:222-227 and elsewhere). -/
structure Num where
  /-- its text -/
  text : Text
  /-- which has only characters of numbers -/
  ok : ∀ c ∈ text, plain c = true
  /-- and at least one -/
  ne : text ≠ []

/-- The decimal digit `d` (print.hpp:212 `std::to_string`). -/
def digit (d : Nat) : Char := Char.ofNat (48 + d)

/-- print.hpp:34-36, 212: a natural number in decimal. -/
def natText (n : Nat) : Text := if n = 0 then ['0'] else ((Nat.digits 10 n).map digit).reverse

/-- print.hpp:27-37: an integer in decimal. -/
def intText (n : Int) : Text := match n with
  | .ofNat m => natText m
  | .negSucc m => '-' :: natText (m + 1)

/-- print.hpp:188-203. -/
def boolText (b : Bool) : Text := if b then (lit "true") else (lit "false")

/-- print.hpp:205-213: a byte is printed as a number, not as a character. -/
def byteText (b : Fin 256) : Text := natText b.val

/-- print.hpp:215-230. -/
def vector2Text (v : Fin 2 → Num) : Text :=
  (lit "Vector2d: <x: ") ++ (v 0).text ++ (lit " y: ") ++ (v 1).text ++ (lit ">")

/-- print.hpp:232-249. -/
def vector3Text (v : Fin 3 → Num) : Text :=
  (lit "Vector3d: <x: ") ++ (v 0).text ++ (lit " y: ") ++ (v 1).text ++ (lit " z: ") ++ (v 2).text ++ (lit ">")

/-- print.hpp:251-270. -/
def vector4Text (v : Fin 4 → Num) : Text :=
  (lit "Vector4d: <x: ") ++ (v 0).text ++ (lit " y: ") ++ (v 1).text ++ (lit " z: ") ++ (v 2).text ++ (lit " w: ")
    ++ (v 3).text ++ (lit ">")

/-- print.hpp:272-295: a dynamic vector. -/
def vectorXText (v : List Num) : Text := match v with
  | [] => (lit "VectorXd: <>")
  | x :: xs => (lit "VectorXd: <") ++ x.text ++ (xs.map fun y => (lit ", ") ++ y.text).flatten ++ (lit ">")

/-- print.hpp:331-350: x, y, z, w. -/
def quaternionText (q : Fin 4 → Num) : Text :=
  (lit "Quaterniond: <x: ") ++ (q 0).text ++ (lit " y: ") ++ (q 1).text ++ (lit " z: ") ++ (q 2).text ++ (lit " w: ")
    ++ (q 3).text ++ (lit ">")

/-- print.hpp:352-379: the translation and the rotation as a quaternion. -/
def isometryText (p : (Fin 3 → Num) × (Fin 4 → Num)) : Text :=
  (lit "Isometry3d: <x: ") ++ (p.1 0).text ++ (lit " y: ") ++ (p.1 1).text ++ (lit " z: ") ++ (p.1 2).text ++ (lit ">, <x: ")
    ++ (p.2 0).text ++ (lit " y: ") ++ (p.2 1).text ++ (lit " z: ") ++ (p.2 2).text ++ (lit " w: ") ++ (p.2 3).text ++ (lit ">")

/-- print.hpp:309-313, 316-320: the row `row` of a matrix with at least one column, after its line break. -/
def rowText (cols : Nat) (m : Nat → Nat → Num) (row : Nat) : Text :=
  (m row 0).text ++ ((List.range' 1 (cols - 1)).map fun col => (lit ", ") ++ (m row col).text).flatten

/-- print.hpp:297-329: a dynamic matrix. -/
def matrixText (rows cols : Nat) (m : Nat → Nat → Num) : Text :=
  if rows > 0 ∧ cols > 0 then
    (lit "MatrixXd:\n[") ++ rowText cols m 0
      ++ ((List.range' 1 (rows - 1)).map fun row => (lit "\n") ++ rowText cols m row).flatten ++ (lit "]")
  else (lit "MatrixXd:\n[]")

/-- print.hpp:90-182: the containers `Print` accepts. -/
inductive Kind
  | array | vector | list | deque | set | multiset | unorderedSet | unorderedMultiset
  deriving DecidableEq, Repr

/-- print.hpp:114-165: the associative containers `Print` accepts. -/
inductive MapKind
  | map | multimap | unorderedMap | unorderedMultimap
  deriving DecidableEq, Repr

/-- print.hpp:43-182: the types `Print` is called with, except matrices. `int` stands for the integer types that are printed as numbers. -/
inductive Ty
  | bool | byte | int | string | vector2 | vector3 | vector4 | vectorX | quaternion | isometry
  | pair (a b : Ty)
  | seq (k : Kind) (t : Ty)
  | map (k : MapKind) (a b : Ty)

/-- print.hpp:43-182: the values of a type; a container is the list of its elements in the order of iteration. -/
@[reducible] def Ty.Val : Ty → Type
  | .bool => Bool
  | .byte => Fin 256
  | .int => Int
  | .string => Text
  | .vector2 => Fin 2 → Num
  | .vector3 => Fin 3 → Num
  | .vector4 => Fin 4 → Num
  | .vectorX => List Num
  | .quaternion => Fin 4 → Num
  | .isometry => (Fin 3 → Num) × (Fin 4 → Num)
  | .pair a b => a.Val × b.Val
  | .seq _ t => List t.Val
  | .map _ a b => List (a.Val × b.Val)

/-- print.hpp:410-415, 441-445: element 0, then the others by index, each after the separator. -/
def indexLoop {α : Type} (print : α → Text) (sep : Text) (l : List α) : Text := match l with
  | [] => []
  | x :: xs => print x ++ (xs.map fun y => sep ++ print y).flatten

/-- print.hpp:470-482: a loop over iterators, the separator before every element that is not at `begin()`. -/
def iterLoop {α : Type} (print : α → Text) (sep : Text) (atBegin : Bool) (l : List α) : Text := match l with
  | [] => []
  | x :: xs => (if atBegin then print x else sep ++ print x) ++ iterLoop print sep false xs

/-- print.hpp:400-964: the loop of each container. -/
def Kind.loop {α : Type} (k : Kind) (print : α → Text) (sep : Text) (l : List α) : Text := match k with
  | .array | .vector => indexLoop print sep l
  | _ => iterLoop print sep true l

/-- print.hpp:410, 441, 470, 558, 695, 739, 884, 931: the opening delimiter of each container. -/
def Kind.opening : Kind → Char
  | .array | .vector | .list | .deque => '['
  | _ => '('

/-- print.hpp:416, 446, 483, 571, 708, 752, 898, 945: the closing delimiter of each container. -/
def Kind.closing : Kind → Char
  | .array | .vector | .list | .deque => ']'
  | _ => ')'

/-- print.hpp:400-964: nothing at all for an empty container. -/
def container {α : Type} (delims : Bool) (o c : Char) (loop : List α → Text) (l : List α) : Text :=
  if l.length > 0 then if delims then [o] ++ loop l ++ [c] else loop l else []

/-- print.hpp:381-398. -/
def pairText {α β : Type} (delims : Bool) (pa : α → Text) (pb : β → Text) (x : α × β) : Text :=
  if delims then (lit "<") ++ pa x.1 ++ ((lit ": ") ++ pb x.2 ++ (lit ">"))
  else pa x.1 ++ ((lit ": ") ++ pb x.2)

/-- print.hpp:27-964 `Print(value, add_delimiters, separator)`. -/
def print (delims : Bool) (sep : Text) : (t : Ty) → t.Val → Text
  | .bool, x => boolText x
  | .byte, x => byteText x
  | .int, x => intText x
  | .string, x => x
  | .vector2, x => vector2Text x
  | .vector3, x => vector3Text x
  | .vector4, x => vector4Text x
  | .vectorX, x => vectorXText x
  | .quaternion, x => quaternionText x
  | .isometry, x => isometryText x
  | .pair a b, x => pairText delims (print delims sep a) (print delims sep b) x
  | .seq k t, x => container delims k.opening k.closing (k.loop (print delims sep t) sep) x
  | .map _ a b, x =>
    container delims '{' '}' (iterLoop (pairText delims (print delims sep a) (print delims sep b)) sep true) x

end CRU.Print
