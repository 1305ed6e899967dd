import Verif.Model.ContentCache
/-
Vocabulary to state properties of a history of a MemoryContentCache.
-/
namespace PyNDN
namespace ContentCache

/-- The clock readings, in order. -/
def readings (t : List Ev) : List Int := t.filterMap (fun e => match e with | .read r => some r | _ => none)

/-- The numbers of the stored Interests that were answered, in order. -/
def answered (t : List Ev) : List Nat := t.filterMap (fun e => match e with | .answer id _ _ _ => some id | _ => none)

/-- When a stored Interest times out. -/
def timesOutAt (i : Interest) (storedAt : Int) : Int := storedAt + ((i.lifetime.getD 4000 : Nat) : Int)

/-- A packet with this freshness period, put in the cache at this time, has not gone stale. -/
def isFreshAt (freshness : Option Nat) (addedAt now : Int) : Prop := ∀ f : Nat, freshness = some f → now < addedAt + f

/-- A packet with this freshness period, put in the cache at this time, is to stay in the cache at this time. -/
def livesAt (freshness : Option Nat) (minimumCacheLifetime addedAt now : Int) : Prop :=
  ∀ f : Nat, freshness = some f → now < addedAt + f ∨ now < addedAt + minimumCacheLifetime

/-- The Interest accepts the packet: its name matches, and it is fresh if it must be. -/
def accepts (i : Interest) (c : Content) (freshness : Option Nat) (addedAt now : Int) : Prop :=
  i.matchesName c.name = .ok true ∧ (i.mustBeFresh = true → isFreshAt freshness addedAt now)

/-- The component of the packet's name after the Interest's name, or the empty component. -/
def nextComponent (i : Interest) (c : Content) : Component :=
  match c.name.drop i.name.length with
  | [] => ⟨.generic, []⟩
  | x :: _ => x

end ContentCache
end PyNDN
