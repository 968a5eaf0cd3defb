import Verif.Model.Pipeline

/-!
# Generated code under another name
-/

namespace CMacro

/-- The same generated code under the name `g`. -/
def GenFn.named (g : Str) : GenFn → GenFn
  | .macro _ ps b => .macro g ps b
  | .fn _ as r b => .fn g as r b

/-- The same result under the name `g`. -/
def PipeRes.named (g : Str) : PipeRes GenFn → PipeRes GenFn
  | .expand e => .expand e
  | .parse e => .parse e
  | .gen (.ok out) => .gen (.ok (out.named g))
  | .gen (.error e) => .gen (.error e)

end CMacro
