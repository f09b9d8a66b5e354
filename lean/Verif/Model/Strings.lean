import Verif.Model.Core
/-
Model of /repo/absl/absl.h: the texts of intervals, dims and shapes.  A text is a list of characters.
`absl::Format` with `%v` or `%d` of an integer is the usual decimal notation (trusted).
-/
namespace Nda

/-- `%v` of an `index_t`, `%d` of a `size_t`. -/
def decimal (x : Int) : List Char :=
  if x < 0 then '-' :: Nat.toDigits 10 x.natAbs else Nat.toDigits 10 x.natAbs

/-- absl.h:15-18 `AbslStringify(sink, interval)`: `[min, end)`. -/
def Interval.text (v : Interval) : List Char :=
  "[".toList ++ decimal v.min ++ ", ".toList ++ decimal (v.min + v.extent) ++ ")".toList

/-- absl.h:23-30 `AbslStringify(sink, dim)`. -/
def Dim.text (d : Dim) : List Char :=
  if isResolvedStride d.stride then
    "dim(".toList ++ decimal d.min ++ ", ".toList ++ decimal d.extent ++ ", ".toList ++ decimal d.stride ++
      ")".toList
  else "dim(".toList ++ decimal d.min ++ ", ".toList ++ decimal d.extent ++ ")".toList

/-- `absl::StrJoin(dims, ", ")`. -/
def joinDims : List Dim → List Char
  | [] => []
  | [d] => d.text
  | d :: e :: ds => d.text ++ ", ".toList ++ joinDims (e :: ds)

/-- absl.h:36-39 `AbslStringify(sink, shape)`. -/
def Shape.text (s : Shape) : List Char :=
  "shape<".toList ++ decimal (List.length s) ++ ">(".toList ++ joinDims s ++ ")".toList

end Nda
