import Verif.Props.ChronoInit
/-
C61, C62: the hypotheses are met, and what happens where the claims have exceptions.
-/
namespace PyNDN
namespace Chrono
open Spec.Chrono

/-- Different states have different digests if the hash has no collision among what is hashed for them, and sessions and
numbers have 32 bits. -/
theorem C61_distinct (sha : Bytes → Bytes) (h32 : ∀ b, (sha b).length = 32) (cs cs' : List Content)
    (h : ∀ i j l l', Listing (heard (cs.take i)) l → Listing (heard (cs'.take j)) l' → NoCollision sha (hashed sha l ++ hashed sha l') ∧ Small l ∧ Small l') :
    Distinct sha cs cs' := by
  intro i j l l' hl hl' e
  obtain ⟨h1, h2, h3⟩ := h i j l l' hl hl'
  exact digest_inj h32 h1 h2 h3 e

/-- A check for examples. -/
theorem distinct_check {sha : Bytes → Bytes} {cs cs' : List Content}
    (h : ∀ i ∈ List.range (cs.length + 1), ∀ j ∈ List.range (cs'.length + 1), (coreOf sha (cs.take i)).1.root = (coreOf sha (cs'.take j)).1.root →
      (coreOf sha (cs.take i)).1.nodes.map Node.pair = (coreOf sha (cs'.take j)).1.nodes.map Node.pair) : Distinct sha cs cs' := by
  intro i j l l' hl hl' e
  have key : ∀ (cs : List Content) (i : Nat), ∃ k ∈ List.range (cs.length + 1), cs.take i = cs.take k := by
    intro cs i
    by_cases hi : i ≤ cs.length
    · exact ⟨i, List.mem_range.2 (by omega), rfl⟩
    · exact ⟨cs.length, List.mem_range.2 (by omega), by rw [List.take_length, List.take_of_length_le (by omega)]⟩
  obtain ⟨i', hi', ei⟩ := key cs i
  obtain ⟨j', hj', ej⟩ := key cs' j
  rw [ei] at hl
  rw [ej] at hl'
  have h1 := core_holds sha (cs.take i')
  have h2 := core_holds sha (cs'.take j')
  rw [sorted_unique hl h1.listing, sorted_unique hl' h2.listing] at e ⊢
  exact h i' hi' j' hj' (by rw [h1.rootEq, h2.rootEq, e])

/-! A simple encoding, for examples. -/

def exSerialize (c : Content) : Bytes :=
  c.flatMap fun x => [UInt8.ofNat x.type, UInt8.ofNat x.seq, UInt8.ofNat x.session, UInt8.ofNat x.name.length] ++ x.name.map fun ch => UInt8.ofNat ch.toNat

def exParseLoop : Nat → Bytes → Except Err Content
  | _, [] => .ok []
  | n + 1, t :: q :: s :: l :: rest =>
    if rest.length < l.toNat then .error .value
    else (exParseLoop n (rest.drop l.toNat)).map fun c => { name := (rest.take l.toNat).map fun b => Char.ofNat b.toNat, type := t.toNat, seq := q.toNat, session := s.toNat } :: c
  | _, _ => .error .value

def exParams (pre : Text) (session : Nat) : Params where
  sha256 := exSha
  serialize := exSerialize
  parse := fun b => exParseLoop b.length b
  prefixUri := pre
  broadcast := [⟨.generic, [66]⟩]
  session := session
  lifetime := 2000

def exA : Params := exParams ['/', 'a'] 1
def exB : Params := exParams ['/', 'b'] 1

def exState (pre : Text) (session seq : Nat) : SyncState := { name := pre, seq := seq, session := session }

/-- A starts alone; B comes, and is told of A; A is told of B; A publishes. -/
def exOpsA : List Op := [.timeout 0, .data 0 (exSerialize [exState ['/', 'b'] 1 0]), .publish []]
def exOpsB : List Op := [.data 0 (exSerialize [exState ['/', 'a'] 1 0])]

theorem exDisciplined : Disciplined exA exOpsA := by
  intro a op b e
  have h3 : ∀ c, exA.parse (exSerialize [exState ['/', 'b'] 1 0]) = .ok c → ∀ x ∈ c, x.type = 0 → x.name = exA.prefixUri → x.session = exA.session := by
    intro c hc x hx _ hn
    have : exA.parse (exSerialize [exState ['/', 'b'] 1 0]) = .ok [exState ['/', 'b'] 1 0] := by decide +kernel
    rw [this] at hc
    cases hc
    rw [List.mem_singleton.1 hx] at hn
    exact absurd hn (by decide)
  match a, e with
  | [], e => cases e; trivial
  | [_], e => cases e; exact h3
  | [_, _], e =>
    cases e
    show Event.initialized ∈ (run exA [.timeout 0, .data 0 (exSerialize [exState ['/', 'b'] 1 0])]).events
    decide +kernel
  | _ :: _ :: _ :: _, e =>
    simp only [exOpsA, List.cons_append, List.cons.injEq] at e
    exact absurd e.2.2.2 (by simp)

/-- The hypotheses of C61_publish, C61_follow and C61_answer_partial are met. -/
example : Disciplined exA exOpsA ∧ RootsDiffer exSha (run exA exOpsA).applied ∧ Distinct exSha (run exB exOpsB).applied (run exA exOpsA).applied ∧
    InOrder (run exA exOpsA).applied ∧ (run exA exOpsA).enabled = true ∧
    (run exB exOpsB).tree = (run exA exOpsA.dropLast).tree ∧
    (run exB exOpsB).tree.root ∈ (run exA exOpsA).log.map (·.1) ∧ (run exB exOpsB).tree.root ≠ (run exA exOpsA).tree.root ∧
    (run exB exOpsB).tree.root ≠ ['0', '0'] ∧ (run exB exOpsB).outstanding.length = 1 := by
  refine ⟨exDisciplined, distinct_check ?_, distinct_check ?_, ?_, by decide +kernel, by decide +kernel, by decide +kernel, by decide +kernel, by decide +kernel, by decide +kernel⟩
  · decide +kernel
  · decide +kernel
  · unfold InOrder
    decide +kernel

/-- B does not know the digest of A; the hypotheses of C61_sync (and C61_unknown, C61_recovery, C61_merge) are met. -/
example : let opsQ : List Op := [.timeout 0, .interest (appendText exB.broadcast (run exA [.timeout 0]).tree.root)]
    (run exA [.timeout 0]).enabled = true ∧ (run exB opsQ).enabled = true ∧ (run exA [.timeout 0]).tree.nodes ≠ [] ∧
    (run exB opsQ).waits[0]? = some (run exA [.timeout 0]).tree.root ∧ (run exA [.timeout 0]).tree.root ∉ (run exB opsQ).log.map (·.1) ∧
    (run exB opsQ).tree.root ≠ ['0', '0'] ∧
    exB.parse (exA.serialize (whole (run exA [.timeout 0]))) = .ok (whole (run exA [.timeout 0])) := by
  decide +kernel

/-- The hypotheses of C61_told, C61_judged and C61_initialized are met: the first Interest is outstanding and can be answered;
a digest was unknown when its Interest came and is known after the wait. -/
example : Disciplined exA [] ∧ (run exA []).outstanding[0]?.map (·.2) = some true ∧ (run exA []).enabled = true ∧
    exA.parse (exSerialize [exState ['/', 'b'] 1 0]) = .ok [exState ['/', 'b'] 1 0] ∧
    RootsDiffer exSha (run exA ([] ++ [.data 0 (exSerialize [exState ['/', 'b'] 1 0])])).applied := by
  refine ⟨?_, by decide +kernel, by decide +kernel, by decide +kernel, distinct_check (by decide +kernel)⟩
  intro a op b e
  simp at e

example : let opsJ : List Op := [.timeout 0, .interest (appendText exA.broadcast (run exA exOpsA.dropLast).tree.root), .data 0 (exSerialize [exState ['/', 'b'] 1 0]), .publish []]
    (run exA opsJ).waits[0]? = some (run exA exOpsA.dropLast).tree.root ∧ (run exA opsJ).enabled = true ∧
    RootsDiffer exSha (run exA opsJ).applied ∧ (run exA exOpsA.dropLast).tree.root ∈ (run exA opsJ).log.map (·.1) ∧
    (run exA exOpsA.dropLast).tree.root ≠ (run exA opsJ).tree.root := by
  refine ⟨by decide +kernel, by decide +kernel, distinct_check (by decide +kernel), by decide +kernel, by decide +kernel⟩

/-! ### Exceptions -/

/-- Another session of the same prefix: a new instance with the session 2 that is told of number 5 of the session 1 starts
with number 6, and offers to others the state 5 for its session, which its own tree does not contain. -/
theorem C61_other_session :
    let P := exParams ['/', 'a'] 2
    let s := run P [.data 0 (exSerialize [exState ['/', 'a'] 1 5])]
    s.sequenceNo = 6 ∧ getProducerSequenceNo s ['/', 'a'] 2 = 6 ∧
    .cache (appendText P.broadcast (treeHear exSha {} [exState ['/', 'a'] 1 5]).root) (exSerialize [exState ['/', 'a'] 2 5]) ∈ s.events := by
  decide +kernel

/-- The state of another session of the prefix overwrites the own number: `getSequenceNo` goes back, and the next call of
`publishNextSequenceNo` raises RuntimeError. -/
theorem C61_publish_raises :
    let ops : List Op := [.timeout 0, .publish [], .publish [], .data 0 (exSerialize [exState ['/', 'a'] 7 0])]
    (run exA (ops.take 3)).sequenceNo = 2 ∧ (run exA ops).sequenceNo = 0 ∧ (perform exA (run exA ops) (.publish [])).1 = .error .runtime := by
  decide +kernel

/-- Publishing before `onInitialized`: when the first Interest times out RuntimeError is raised, and `getSequenceNo` is not the
number that was published. -/
theorem C61_early :
    let s := run exA [.publish []]
    (perform exA s (.timeout 0)).1 = .error .runtime ∧ s.sequenceNo = 0 ∧ (perform exA s (.timeout 0)).2.sequenceNo = 1 ∧
    getProducerSequenceNo (perform exA s (.timeout 0)).2 ['/', 'a'] 1 = 0 := by
  decide +kernel

/-- The last state that was heard is sent, not the newest: who asks with the digest from before gets number 3 of /b, although 5
is known. -/
theorem C61_stale :
    let ops : List Op := [.timeout 0, .data 0 (exSerialize [exState ['/', 'b'] 1 5]), .data 0 (exSerialize [exState ['/', 'b'] 1 3, exState ['/', 'c'] 1 2])]
    let name := appendText exA.broadcast (run exA (ops.take 1)).tree.root
    getProducerSequenceNo (run exA ops) ['/', 'b'] 1 = 5 ∧
    (run exA (ops ++ [.interest name])).events = (run exA ops).events ++ [.keep name, .put name (exSerialize [exState ['/', 'b'] 1 3, exState ['/', 'c'] 1 2]) none] := by
  decide +kernel

/-- Only one session of a name is sent: who asks with the digest from before is not told of the session 1 of /b. -/
theorem C61_one_session :
    let ops : List Op := [.timeout 0, .data 0 (exSerialize [exState ['/', 'b'] 1 5]), .data 0 (exSerialize [exState ['/', 'b'] 2 0])]
    let name := appendText exA.broadcast (run exA (ops.take 1)).tree.root
    getProducerSequenceNo (run exA ops) ['/', 'b'] 1 = 5 ∧
    (run exA (ops ++ [.interest name])).events = (run exA ops).events ++ [.keep name, .put name (exSerialize [exState ['/', 'b'] 2 0]) none] := by
  decide +kernel

/-- One Data packet that cannot be parsed, and no Interest is outstanding any more: the exception is raised before the next one
is expressed. -/
theorem C62_stops :
    let s := run exA [.timeout 0, .data 0 [1]]
    s.enabled = true ∧ s.outstanding = [] ∧ (perform exA (run exA [.timeout 0]) (.data 0 [1])).1 = .error .value := by
  decide +kernel

end Chrono
end PyNDN
