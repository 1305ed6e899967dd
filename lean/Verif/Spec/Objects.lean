import Verif.Model.Objects
/-
Specification of what a call on an Interest changes.  Only the data types come from the model.
-/
namespace PyNDN.Spec

/-- Whether a call changes the Interest or one of its child objects: every setter of the Interest and
every mutating method of a child does; changing a Name does if it is the Interest name or the key name of
its key locator; removing a delegation does if it is there.  A call with a reference that does not exist
is not possible.  The nonce itself is left out, and so is the Link object (see `C24_link_unnoticed`). -/
def Changes (h : Heap) (i : InterestObj) : InterestOp → Prop
  | .newName _ => False
  | .nameAppend r _ => r = i.name ∨ r = i.kl.keyName
  | .nameClear r => r = i.name ∨ r = i.kl.keyName
  | .setName r => r < h.length
  | .klName r => r < h.length
  | .hint (.remove n) => ∃ d ∈ i.hint.val, d.name = n
  | .appendParametersDigest _ => i.params ≠ none ∧ i.params ≠ some []
  | .setNonce _ => False
  | .refreshNonce _ => False
  | .editLink _ => False
  | .read _ => False
  | _ => True

open Classical in
/-- What `getNonce` must return after a call, if it would have returned `cur` before it: the nonce that was
set, a new nonce of `refreshNonce` if there was one, nothing if the call changed the Interest, and
otherwise what it was. -/
noncomputable def nonceAfterOp (h : Heap) (i : InterestObj) (cur : Option Bytes) : InterestOp → Option Bytes
  | .setNonce b => b
  | .refreshNonce new => if cur = none ∨ cur = some [] then cur else some new
  | op => if Changes h i op then none else cur

end PyNDN.Spec
