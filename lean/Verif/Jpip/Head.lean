import Verif.Jpip.Resolve
import Verif.Jpip.Transport

/-!
# The response to a request, as it is sent

Models the head the server puts together in source/apps/jpip_server/main.cpp:415-419, 458, 463, with the responses of 471-501 (jpip_response.cpp is `Verif.Jpip.Http`).
Bytes are natural numbers; `none` is a read outside of a buffer.
-/

namespace Verif.Jpip

/-- main.cpp:458: the value of JPIP-cnew; nothing without a new channel. -/
def cnewValue (granted : Option (List Char × List Char)) : List Nat :=
  match granted with
  | none => []
  | some (cid, transport) => asc "cid=" ++ cid.map Char.toNat ++ asc ",path=jpip,transport=" ++ transport.map Char.toNat

/-- main.cpp:416-419, 463: the further lines; `inChannel` says that the request has a channel, old or new. -/
def extraHeaders (qid : Option Nat) (inChannel : Bool) : List Nat :=
  (match qid with
    | none => []
    | some q => asc "JPIP-qid: " ++ (decStr q).map Char.toNat ++ [13, 10]) ++ if inChannel then asc "Cache-Control: no-cache" ++ [13, 10] else []

/-- main.cpp:471-494: the response in chunks, one for each message that is not empty. -/
def respondChunked (tid : List Nat) (granted : Option (List Char × List Char)) (qid : Option Nat) (inChannel : Bool) (msgs : List (List Nat)) : Option (List Nat) := do
  let head ← formatChunkedHead tid (cnewValue granted) (extraHeaders qid inChannel)
  some (head ++ sendChunks msgs)

/-- main.cpp:496-500: the response as one buffer. -/
def respondBuffered (tid : List Nat) (granted : Option (List Char × List Char)) (qid : Option Nat) (inChannel : Bool) (body : List Nat) : Option (List Nat) :=
  formatResponse body tid (cnewValue granted) (extraHeaders qid inChannel)

end Verif.Jpip
