/-
Small pieces of the Python runtime used by several modules.
-/
namespace Toron

/-- Exceptions, as values.  Only the class is kept, and a tag naming the raise site
(messages are not modelled). -/
inductive Err where
  | typeError (tag : String)
  | valueError (tag : String)
  | keyError (tag : String)
  | indexError (tag : String)
  | runtimeError (tag : String)
  | overflowError (tag : String)
  /-- `sqlite3.IntegrityError` (UNIQUE, CHECK, NOT NULL, FOREIGN KEY, RAISE in a trigger) -/
  | integrityError (tag : String)
  /-- `sqlite3.OperationalError` (malformed SQL, missing table or column) -/
  | operationalError (tag : String)
  /-- `UnboundLocalError` / `NameError` -/
  | nameError (tag : String)
  /-- toron's own exception class, `src/toron/_utils.py: ToronError` -/
  | toronError (tag : String)
  /-- plain `Exception` -/
  | exception (tag : String)
  deriving DecidableEq, Repr

/-- `itertools.combinations(xs, k)`: sub-sequences of length `k` in lexicographic order of
positions (standard library documentation). -/
def combinations {α : Type _} : Nat → List α → List (List α)
  | 0, _ => [[]]
  | _ + 1, [] => []
  | k + 1, x :: xs => (combinations k xs).map (x :: ·) ++ combinations (k + 1) xs

/-- Insert `x` in front of the first element that is not smaller. -/
def insertBy {α : Type _} (le : α → α → Bool) (x : α) : List α → List α
  | [] => [x]
  | y :: ys => if le x y then x :: y :: ys else y :: insertBy le x ys

/-- Python's `sorted(xs, key=..)`, a stable sort: elements with equal keys keep their order
(insertion from the right, each element is put before the first one that is not smaller). -/
def sortedBy {α : Type _} (le : α → α → Bool) : List α → List α
  | [] => []
  | x :: xs => insertBy le x (sortedBy le xs)

end Toron
