import Verif.Spec.Server

/- What is expected of the output of the logger. -/
namespace Obsidian.Spec
open Obsidian
variable {U : Univ} {σ : Type}

/-- The names of the methods (RFC 9110). -/
def methodName : Method → String
  | .get => "GET"
  | .head => "HEAD"
  | .post => "POST"
  | .put => "PUT"
  | .delete => "DELETE"
  | .connect => "CONNECT"
  | .options => "OPTIONS"
  | .trace => "TRACE"
  | .patch => "PATCH"
  | .extension n => String.ofList n

/-- The target of a request as the client wrote it: the path, and the query after a question mark. -/
def target (req : Request U) : Str := req.path ++ (req.query.map ('?' :: ·)).getD []

/-- The request is reported: first its method and target, and last the status that the client gets, or
the error (then the client gets status 500 and the text of the error). `inner` is what is printed by the
rest of the chain. -/
def Reported (req : Request U) (sent : Sent) (inner printed : List Line) : Prop :=
  ∃ last, printed = .request (methodName req.method).toList (target req) :: .debug :: inner ++ [last] ∧
    (last = .sent sent.status ∨
      ∃ t, last = .error t ∧ sent.status = 500 ∧ sent.body.bytes = utf8 t)

end Obsidian.Spec
