import Verif.Common

/-!
Loops over a table, seen from outside: the body is shown one entry after the other and makes calls. `E` are the entries, `O` the calls.
-/
namespace Verif.Walk

variable {E O : Type _}

/-- All calls that the body has made when it has been shown these entries: after the first, after the second, ... -/
def calls (prog : List E → List O) (shown : List E) : List O := (List.range shown.length).flatMap (fun j => prog (shown.take (j + 1)))

end Verif.Walk
