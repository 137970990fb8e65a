import Verif.Spec.Conversation
import Verif.Spec.Target

/-! # Requests that are received and written again -/

namespace Webparse.Spec

/-- Every byte written as `%` and two hexadecimal digits. -/
def escaped (s : Bytes) : Bytes :=
  s.flatMap fun b => [37, ((asciiBytes "0123456789ABCDEF")[b.toNat / 16]?).getD 0, ((asciiBytes "0123456789ABCDEF")[b.toNat % 16]?).getD 0]

/-- A path with which one request is written as two: the first from its path to its end, and the second up to its path. -/
def twoInOne (first second : SentRequest) : Bytes :=
  first.request.url.path ++ [32] ++ first.request.version.asStr ++ [13, 10] ++ headerText first.request.header ++ first.wireBody ++
    second.request.method.asStr ++ [32] ++ second.request.url.path

/-- A target of that path: all but the slash at its start is escaped. -/
def targetOf (path : Bytes) : Bytes := 47 :: escaped path.tail

end Webparse.Spec
