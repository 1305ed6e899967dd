import Verif.Props.NodeRemove
/-
Executions that meet the hypotheses of C28, C29, C30, C45, and executions that show why the `_partial`
theorems have their hypotheses.
-/
namespace PyNDN
namespace Node

/-- A face with a synchronous transport. -/
def exC : NodeConfig := ⟨fun b => b, fun _ _ => .ok true, false, false⟩

/-- The Data packet /A. -/
def exData : RxData := ⟨[⟨.generic, [65]⟩], .ok [⟨.generic, [65]⟩, ⟨.implicit, [1]⟩], .digest, none⟩

/-- Interests for /A. -/
def exInterest : Interest := { name := [⟨.generic, [65]⟩] }

/-- The same with an exclude that ends in ANY ANY. -/
def exBad : Interest := { name := [⟨.generic, [65]⟩], exclude := [some ⟨.generic, [66]⟩, none, none] }

/-- An Interest for /B. -/
def exOther : Interest := { name := [⟨.generic, [66]⟩] }

/-- Express two Interests for /A and one for /B, with ids 1, 2 and 3. -/
def exThree : List Action :=
  [.allocId, .allocId, .allocId, .express 1 exInterest true true (fun _ => 7) true true, .lib true,
   .express 2 exInterest false false (fun _ => 8) true true, .express 3 exOther true false (fun _ => 9) true true]

/-- The encoding of an example Data packet named /A (type 6, name, signature info and value). -/
def exWire : Bytes := [6, 14, 7, 3, 8, 1, 65, 22, 3, 27, 1, 0, 23, 2, 1, 2]

/-- The same for /A/A. -/
def exWireB : Bytes := [6, 17, 7, 6, 8, 1, 65, 8, 1, 65, 22, 3, 27, 1, 0, 23, 2, 1, 2]

/-- The encoding of the first Interest. -/
def exInterestWire : Bytes := [5, 11, 7, 3, 8, 1, 65, 10, 4, 7, 7, 7, 7]

/-- The same in a Nack. -/
def exNackWire : Bytes := [100, 24] ++ [253, 3, 32, 5, 253, 3, 33, 1, 50] ++ [80, 13] ++ exInterestWire

/-- What the node sees of the Data packet `exWire`. -/
def exRx : RxData := ⟨[⟨.generic, [65]⟩], .ok [⟨.generic, [65]⟩, ⟨.implicit, exWire⟩], .digest, none⟩

/-- C28, C29: a Data packet arrives; the callbacks of the two matching Interests are called, then the third times out,
and a second copy of the packet has no effect. -/
example : (run exC {} (exThree ++ [.receive exWire, .lib true, .ret, .lib true, .ret, .lib true,
      .receive exWire, .lib true, .clock 5000, .callTimedOut, .lib true, .lib true, .ret, .lib true, .lib true])).trace.filter
        (fun e => isCallbackOf 1 e || isCallbackOf 2 e || isCallbackOf 3 e) =
      [.onData 2 1 exRx, .onData 1 0 exRx, .onTimeout 3 2] := by decide +kernel

/-- The hypotheses of `C29_receive_partial` and `C29_exactly` hold before the packet arrives. -/
example : let n := run exC {} exThree
    n.appRuns ∧ n.pending.length = 3 ∧ decodeElement exC exWire = .ok (.data exRx, none) ∧
    ∀ e ∈ n.pending, (∃ b, e.args.interest.matchesData exRx.name exRx.full exRx.info = .ok b) ∧ e.args.handler = .app := by
  refine ⟨⟨.main, [], by decide +kernel⟩, by decide +kernel, by decide +kernel, ?_⟩
  have h : ∀ e ∈ (run exC {} exThree).pending, (e.args.interest.matchesData exRx.name exRx.full exRx.info = .ok true ∨
      e.args.interest.matchesData exRx.name exRx.full exRx.info = .ok false) ∧ e.args.handler = .app := by decide +kernel
  intro e he
  obtain ⟨h1, h2⟩ := h e he
  exact ⟨by rcases h1 with h1 | h1 <;> exact ⟨_, h1⟩, h2⟩

/-- Why `C29_receive_partial` and `C29_loopback_partial` have the hypothesis that no match test raises: if the test of an
earlier Interest raises (here because its Exclude ends in ANY ANY, see `C18_anyAny`), an Interest that was
already taken from the table is lost: it is not pending, and its `onData` is not called, nor its
`onTimeout` later. -/
theorem C29_lost : let n := run exC {} [.allocId, .allocId, .express 1 exBad true false (fun _ => 7) true true, .lib true,
      .express 2 exInterest true false (fun _ => 8) true true]
    let n' := n.run exC [.receive exWireB, .clock 5000, .callTimedOut, .lib true, .lib true, .ret, .lib true, .lib true]
    n.pending.map (·.args.id) = [1, 2] ∧ n'.pending = [] ∧ n'.trace.filter (isCallbackOf 1) = [.onTimeout 1 0] ∧
    n'.trace.filter (isCallbackOf 2) = [] ∧ n'.stack = [.app .main] := by decide +kernel

/-- Why C30 is partial: one Data packet matches two Interests.  In the callback of the second the application calls
removePendingInterest for the first, and its `onData` is still called. -/
theorem C30_during_delivery : let n := run exC {} (exThree ++ [.receive exWire, .lib true])
    let n' := n.run exC [.removePendingInterest 1, .ret, .lib true]
    n.appRuns ∧ 1 ∈ n.beingDelivered ∧ n.trace.filter (isCallbackOf 1) = [] ∧ n'.trace.filter (isCallbackOf 1) = [.onData 1 0 exRx] := by
  refine ⟨⟨.guarded, [.deliver exRx [0], .app .main], by decide +kernel⟩, by decide +kernel, by decide +kernel, by decide +kernel⟩

/-- C30: removed before the packet arrives; the other Interest still gets it.  (The hypotheses of `C30_removed_partial`
hold.) -/
example : let n := run exC {} exThree
    n.appRuns ∧ 1 ∉ n.beingDelivered ∧
    (n.run exC [.removePendingInterest 1, .receive exWire, .lib true, .ret, .lib true]).trace.filter (isCallbackOf 1) = [] ∧
    (n.run exC [.removePendingInterest 1, .receive exWire, .lib true, .ret, .lib true]).trace.filter (isCallbackOf 2) = [.onData 2 1 exRx] := by
  refine ⟨⟨.main, [], by decide +kernel⟩, by decide +kernel, by decide +kernel, by decide +kernel⟩

/-- C30: removed while an asynchronous transport is still connecting. -/
example : let n := run { exC with isAsync := true } {} [.allocId, .express 1 exInterest true true (fun _ => 7) true true, .removePendingInterest 1,
      .connected, .lib true, .lib true]
    n.pending = [] ∧ n.status = .complete ∧ n.trace = [.called 1, .removeCalled 1, .connectedCalled, .helper 1 .removed] := by decide +kernel

/-- C45: the Nack of the first Interest goes to it and not to the second, which has another nonce and no
callback. -/
example : let n := run exC {} exThree
    let n' := n.run exC [.receive exNackWire, .lib true, .ret, .lib true]
    (∃ i, decodeElement exC exNackWire = .ok (.interest i exInterestWire, some ⟨50, -1⟩)) ∧
    (∀ e ∈ n.pending, e.args.hasOnNack = true → e.args.wire = .ok exInterestWire) ∧
    n'.trace.drop n.trace.length = [.onNack 1 0 ⟨50, -1⟩] ∧ n'.pending.map (·.args.id) = [2, 3] := by
  refine ⟨⟨{ exInterest with nonce := some [7, 7, 7, 7] }, by decide +kernel⟩, by decide +kernel, by decide +kernel, by decide +kernel⟩

end Node
end PyNDN
