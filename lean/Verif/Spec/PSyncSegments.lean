import Verif.Model.PSyncSegments
import Verif.Spec.SegmentFetcher
/-
Specification of the publishing of PSync content in segments.
-/
namespace PyNDN.Spec.PSync
open PyNDN PyNDN.PSync

/-- A signature changes nothing else in the packet. -/
def SignsOnly (P : PubParams) : Prop :=
  ∀ d, (P.sign d).name = d.name ∧ (P.sign d).content = d.content ∧ (P.sign d).metaInfo = d.metaInfo

/-- The packets are the segments of the content: they are named prefix/0, prefix/1, ..., there is at least
one, each fits in a packet, and their contents make the content. -/
structure Segments (pre : Name) (content : Bytes) (ds : List Data) : Prop where
  some : ds ≠ []
  names : ∀ (i : Nat) (d : Data), ds[i]? = Option.some d → ∃ c, Component.fromSegment i = .ok c ∧ d.name = pre ++ [c]
  small : ∀ d ∈ ds, ∃ b, d.content = Option.some b ∧ b.length ≤ 4400
  whole : (ds.map fun d => d.content.getD []).flatten = content

/-- The answers of a network in which these packets are found, one by one, to the Interests of a fetcher. -/
def answers (ds : List Data) : List Fetch.Action := ds.zipIdx.map fun x => .data x.2 x.1 .yes .ok

/-- What happens to a publisher: a call of `publish`, or the delayed call for a segment. -/
inductive PubOp where
  | publish (now : Nat) (interestName dataName : Name) (content : Bytes) (freshness : Nat)
  | expire (i : Nat)

/-- If `publish` raises, it does so before it changes anything. -/
def pubStep (P : PubParams) (p : Publisher) : PubOp → Publisher
  | .publish now i d c f => match publish P p now i d c f with
    | .ok p' => p'
    | .error _ => p
  | .expire i => removeLater p i

/-- The history of a publisher. -/
def pubRun (P : PubParams) (ops : List PubOp) : Publisher := ops.foldl (pubStep P) {}

/-- A full name begins with the name. -/
def FullNamesExtend (P : PubParams) : Prop := ∀ d k, P.fullName d = .ok k → d.name <+: k

end PyNDN.Spec.PSync
