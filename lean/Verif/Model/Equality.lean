import Verif.Model.Packet
/-
Model of the methods `equals` of Blob (util/blob.py:197-227), MetaInfo (meta_info.py:180-186), RegistrationOptions (registration_options.py:140-145)
and ControlParameters (control_parameters.py:264-276).  Those of Name and Component are in Model/Name, and that of KeyLocator in Model/Packet.
-/
namespace PyNDN.Equality

/-- `Blob.equals`; a null Blob is none.  The test whether both hold the same array object is left out: the loop gives True then. -/
def blobEquals (self other : Option Bytes) : Bool :=
  match self, other with
  | none, none => true
  | none, some _ => false
  | some _, none => false
  | some a, some b => if a.length ≠ b.length then false else (List.range a.length).all fun i => a[i]? == b[i]?

/-- `MetaInfo.equals`; two None freshness periods are equal in Python; the components are compared by `Component.__eq__` (name.py:584-585). -/
def metaInfoEquals (self other : MetaInfo) : Bool :=
  self.type == other.type && self.freshnessPeriod == other.freshnessPeriod && self.finalBlockId.equals other.finalBlockId

/-- `RegistrationOptions` with the origin. -/
structure RegOptions where
  flags : RegFlags := {}
  origin : Option Int := none
  deriving DecidableEq, Repr

/-- `RegistrationOptions.equals`. -/
def regOptionsEquals (self other : RegOptions) : Bool :=
  self.flags.childInherit == other.flags.childInherit && self.flags.capture == other.flags.capture

/-- The `==` of two names that may be None (name.py:1268-1269). -/
def optNameEq : Option Name → Option Name → Bool
  | none, none => true
  | some a, some b => a.equals b
  | _, _ => false

/-- `ControlParameters.equals`: none if it raises AttributeError, for the attribute `_expirationPerion` that does not exist.
RegistrationOptions has no `__eq__`: `sameFlags` tells whether the two have the same RegistrationOptions object (constructor and setter copy it,
so this is so only if the two are the same object). -/
def controlParametersEquals (sameFlags : Bool) (self other : ControlParameters) : Option Bool :=
  if optNameEq self.name other.name && self.faceId == other.faceId && self.uri == other.uri &&
      self.localControlFeature == other.localControlFeature && self.origin == other.origin && self.cost == other.cost &&
      sameFlags && self.strategy.equals other.strategy then none
  else some false

end PyNDN.Equality
