import Verif.Lemmas.TrustAnchorsFind
import Verif.Props.Validator
/-
C85: the trust anchors of a container.
-/
namespace PyNDN.Props
open PyNDN PyNDN.Spec PyNDN.TrustAnchors PyNDN.Spec.TrustAnchors
open PyNDN.Validator (SData keyComponent exCert comp findSorted)

variable {E : Env}

/-! ### An example -/

def c85A : SData := exCert [comp 97] 1 [comp 97, keyComponent, comp 1] 1
def c85B : SData := exCert [comp 98] 2 [comp 98, keyComponent, comp 2] 2
/-- Another certificate with the name of the first. -/
def c85A' : SData := exCert [comp 97] 1 [comp 97, keyComponent, comp 1] 9
/-- Something with the name of the first certificate that is no certificate. -/
def c85Bad : SData := { c85A with data := { c85A.data with content := none } }

/-- A directory with the second certificate, which is gone after 100 ms, and a file that changes. -/
def c85Env : Env where
  file := fun t p => if p = ['f'] then (if t < 100 then some c85A else some c85A') else none
  dir := fun t p => if p = ['d'] then (if t < 100 then some [c85B] else some []) else some []

theorem c85Env_steady : Steady c85Env := by
  intro t p
  unfold c85Env
  dsimp only
  split
  · split
    · exact ⟨_, rfl, by simp⟩
    · exact ⟨_, rfl, by simp⟩
  · exact ⟨_, rfl, by simp⟩

/-- What the last call gives. -/
def c85Last (E : Env) (ops : List Op) (o : Op) : Obs := (step E (run E (init 0) ops) o).2

/-! ### The time -/

theorem find_now (s : State) (look : List SData → Except Err (Option SData)) : (s.find E look).1.now = s.now := by
  unfold State.find
  obtain ⟨groups, anchors, r, hl⟩ : ∃ groups anchors r, refreshAll E s.now s.groups s.anchors = (groups, anchors, r) := ⟨_, _, _, rfl⟩
  rw [hl]
  cases r <;> rfl

theorem insert_now (s : State) (g : Str) (c : SData) : (s.insert g c).1.now = s.now := by
  unfold State.insert
  repeat' split
  all_goals rfl

theorem insertPath_now (s : State) (g path : Str) (p : Nat) (b : Bool) : (s.insertPath E g path p b).1.now = s.now := by
  unfold State.insertPath
  repeat' split
  all_goals rfl

theorem remove_now (s : State) (g : Str) (n : Name) : (s.remove g n).1.now = s.now := by
  unfold State.remove
  repeat' split
  all_goals rfl

theorem run_now (ops : List Op) : ∀ s : State, (run E s ops).now = clock s.now ops := by
  induction ops with
  | nil => exact fun _ => rfl
  | cons o os ih =>
    intro s
    rw [run, ih]
    cases o with
    | insert g c => rw [step, insert_now]; rfl
    | insertPath g path p b => rw [step, insertPath_now]; rfl
    | remove g n => rw [step, remove_now]; rfl
    | clear => rfl
    | find n => rw [step, find_now]; rfl
    | findInterest i => rw [step, find_now]; rfl
    | wait ms => rfl

theorem run_inv' (hE : Steady E) (t : Nat) (ops : List Op) : Inv E (trace E (init t) ops) (run E (init t) ops) := by
  have := run_inv hE ops (init_inv t)
  rwa [List.nil_append] at this

/-! ### The theorems -/

/-- Whatever the calls and the files, a certificate that is found has been added by the application, which has not removed it since, or
it comes from a watched file or directory, where its name was less than a refresh period ago. -/
theorem C85_sound (hE : Steady E) (t : Nat) (ops : List Op) (o : Op) (c : SData)
    (hf : (step E (run E (init t) ops) o).2 = .found (some c)) :
    AddedBy (trace E (init t) ops) c ∨ ReadBy E (trace E (init t) ops) (clock t ops) c := by
  have hi := run_inv' hE t ops
  have hn : (run E (init t) ops).now = clock t ops := run_now ops _
  cases o with
  | find n =>
    obtain ⟨_, anchors, h1, h2⟩ := find_inv hE hi (fun l => .ok (findName n l)) (o := .find n) (by simp) (by simp)
    rw [step, h1] at hf
    rw [← hn]
    refine h2 c ?_
    injection hf with hf
    unfold findName at hf
    split at hf
    · cases hf
    · rename_i d hd
      split at hf
      · injection hf with hf
        subst hf
        exact (List.dropWhile_suffix _).subset (List.mem_of_mem_head? (by rw [hd]; rfl))
      · cases hf
  | findInterest i =>
    obtain ⟨_, anchors, h1, h2⟩ := find_inv hE hi (fun l => findSorted i l) (o := .findInterest i) (by simp) (by simp)
    rw [step, h1] at hf
    rw [← hn]
    refine h2 c ?_
    split at hf
    · cases hf
    · rename_i r hr
      injection hf with hf
      subst hf
      exact (Validator.findSorted_some hr).1
  | insert g d =>
    rw [step] at hf
    unfold State.insert at hf
    repeat' split at hf
    all_goals cases hf
  | insertPath g path p b =>
    rw [step] at hf
    unfold State.insertPath at hf
    repeat' split at hf
    all_goals cases hf
  | remove g n =>
    rw [step] at hf
    unfold State.remove at hf
    repeat' split at hf
    all_goals cases hf
  | clear => cases hf
  | wait ms => cases hf

/-- A certificate that is found has a name that starts with the components of the name asked for, or matches the Interest. -/
theorem C85_asked (t : Nat) (ops : List Op) (c : SData) :
    (∀ n, (step E (run E (init t) ops) (.find n)).2 = .found (some c) → n.map Component.value <+: c.name.map Component.value) ∧
    ∀ i, (step E (run E (init t) ops) (.findInterest i)).2 = .found (some c) →
      i.name.map Component.value <+: c.name.map Component.value ∧ i.matchesData c.name c.full c.data.signature.info = .ok true := by
  constructor
  · intro n hf
    rw [step, State.find] at hf
    split at hf
    · cases hf
    · dsimp only at hf
      injection hf with hf
      unfold findName at hf
      split at hf
      · cases hf
      · split at hf
        · rename_i hm
          injection hf with hf
          subst hf
          exact (matches_iff _ _).mp hm
        · cases hf
  · intro i hf
    rw [step, State.find] at hf
    split at hf
    · cases hf
    · dsimp only at hf
      split at hf
      · cases hf
      · rename_i r hr
        injection hf with hf
        subst hf
        exact ⟨(matches_iff _ _).mp (Validator.findSorted_some hr).2.1, (Validator.findSorted_some hr).2.2⟩

/-- Asking for a name never raises while the directories can be listed and have no two certificates of the same name. -/
theorem C85_total (hE : Steady E) (t : Nat) (ops : List Op) (n : Name) :
    ∃ c, (step E (run E (init t) ops) (.find n)).2 = .found c := by
  obtain ⟨_, anchors, h1, _⟩ := find_inv hE (run_inv' hE t ops) (fun l => .ok (findName n l)) (o := .find n) (by simp) (by simp)
  exact ⟨_, h1⟩

/-- After clear, a certificate is only found if it has been added, or a file or directory has been given, since. -/
theorem C85_cleared (hE : Steady E) (t : Nat) (before after : List Op) (o : Op) (c : SData)
    (hi : ∀ g c, .insert g c ∉ after) (hp : ∀ g path p b, .insertPath g path p b ∉ after) :
    (step E (run E (init t) (before ++ .clear :: after)) o).2 ≠ .found (some c) := by
  intro hf
  have htr : ∀ (l : List Op) (s : State) (x : Op × Obs), x ∈ trace E s l → x.1 ∈ l := by
    intro l
    induction l with
    | nil => exact fun s x hx => absurd hx (by simp [trace])
    | cons o os ih =>
      intro s x hx
      rw [trace, List.mem_cons] at hx
      rcases hx with rfl | hx
      · simp
      · exact List.mem_cons_of_mem _ (ih _ x hx)
  have hap : ∀ (l m : List Op) (s : State), trace E s (l ++ m) = trace E s l ++ trace E (run E s l) m := by
    intro l m
    induction l with
    | nil => exact fun _ => rfl
    | cons o os ih =>
      intro s
      rw [List.cons_append, trace, trace, run, ih, List.cons_append]
  have key : ∀ (h1 h2 before' after' : List (Op × Obs)) (e : Op × Obs) (o : Obs), e.1 ≠ .clear → e ∉ h2 →
      h1 ++ (Op.clear, o) :: h2 = before' ++ e :: after' → (Op.clear, o) ∈ after' := by
    intro h1 h2 before' after' e o hne hn heq
    rcases List.append_eq_append_iff.mp heq with ⟨l, h3, h4⟩ | ⟨l, h3, h4⟩
    · cases l with
      | nil =>
        rw [List.nil_append] at h4
        injection h4 with h4 _
        exact absurd (by rw [← h4]) hne
      | cons x l =>
        rw [List.cons_append] at h4
        injection h4 with _ h4
        exact absurd (by rw [h4]; simp) hn
    · cases l with
      | nil =>
        rw [List.nil_append] at h4
        injection h4 with h4 _
        exact absurd (by rw [h4]) hne
      | cons x l =>
        rw [List.cons_append] at h4
        injection h4 with _ h4
        rw [h4]
        simp
  have hsplit : trace E (init t) (before ++ .clear :: after) = trace E (init t) before ++
      (Op.clear, Obs.done) :: trace E (step E (run E (init t) before) .clear).1 after := by
    rw [hap]
    rfl
  rcases C85_sound hE t _ o c hf with ⟨g, b, a, h1, h2, _⟩ | ⟨path, p, d, ⟨g, b, a, h1, h2⟩, _⟩
  · rw [hsplit] at h1
    exact h2 _ (key _ _ _ _ _ _ (by simp) (fun hm => hi g c (htr _ _ _ hm)) h1)
  · rw [hsplit] at h1
    exact h2 _ (key _ _ _ _ _ _ (by simp) (fun hm => hp g path p d (htr _ _ _ hm)) h1)

/-- A certificate that the application has added, and not removed since, is found by its name and by the prefixes of its name; what is
found may be another certificate under the prefix.  This needs that its name has never been removed from a group, has never been the name
of a certificate that was refused, and is not the name of a certificate in a file or directory. -/
theorem C85_complete_partial (hE : Steady E) (t : Nat) (ops : List Op) (c : SData) (ha : AddedBy (trace E (init t) ops) c)
    (hr : ∀ g, (Op.remove g c.name, Obs.done) ∉ trace E (init t) ops)
    (hb : ∀ g d e, (Op.insert g d, Obs.raised e) ∈ trace E (init t) ops → d.name ≠ c.name)
    (hfile : ∀ t path b d, Contains E t path b d → d.name ≠ c.name) (n : Name) (hn : nameFields n <+: nameFields c.name) :
    ∃ d, (step E (run E (init t) ops) (.find n)).2 = .found (some d) ∧ nameFields n <+: nameFields d.name := by
  have hi := run_inv' hE t ops
  have hap : Apart E c.name (trace E (init t) ops) := ⟨hfile, hr, hb⟩
  have hh := run_held hE ops (init_inv t) (init_held t c.name) (by rwa [List.nil_append])
  rw [List.nil_append] at hh
  obtain ⟨h1, h2, _⟩ := refreshAll_kept hE (now := (run E (init t) ops).now) _ (apart_dyns hi hap) hh.ordered
  obtain ⟨groups, anchors, h4, _⟩ := refreshAll_ok hE (run E (init t) ops).now _ (run E (init t) ops).anchors
    fun g d h => (hi.dyns g d h).2.2
  rw [h4] at h1 h2
  obtain ⟨x, h5, h6⟩ := h2 (hh.added c rfl ha)
  obtain ⟨d, _, h7, h8⟩ := findName_some h1 h5 (h6 ▸ hn)
  refine ⟨d, ?_, h8⟩
  rw [step, State.find, h4]
  dsimp only
  rw [h7]

/-! ### Concrete histories -/

/-- The application's certificate is found by a prefix until it is removed; the one in the directory until the refresh after it is gone. -/
example :
    let ops := [Op.insert ['g'] c85A, .insertPath ['h'] ['d'] 50 true]
    c85Last c85Env ops (.find [comp 97]) = .found (some c85A) ∧ c85Last c85Env ops (.find [comp 98]) = .found (some c85B) ∧
      c85Last c85Env (ops ++ [.wait 90, .find [], .wait 40]) (.find [comp 98]) = .found (some c85B) ∧
      c85Last c85Env (ops ++ [.wait 90, .find [], .wait 50]) (.find [comp 98]) = .found none ∧
      c85Last c85Env (ops ++ [.remove ['g'] c85A.name]) (.find [comp 97]) = .found none ∧
      c85Last c85Env (ops ++ [.clear]) (.find [comp 98]) = .found none := by decide +kernel

/-- The hypotheses of `C85_complete_partial`. -/
example : ∃ d, (step c85Env (run c85Env (init 0) [.insert ['g'] c85A]) (.find [comp 97])).2 = .found (some d) ∧
    nameFields [comp 97] <+: nameFields d.name := ⟨c85A, by decide +kernel, by decide +kernel⟩

/-! ### Departures -/

/-- A name has two certificates in a directory: adding the directory raises KeyError, and there is no group; still the certificate is
trusted from then on, whatever happens to the directory. -/
theorem C85_duplicate_stays :
    let E : Env := { file := fun _ _ => none, dir := fun t _ => if t < 10 then some [c85B, c85B] else some [] }
    c85Last E [] (.insertPath ['g'] ['d'] 50 true) = .raised .key ∧
      c85Last E [.insertPath ['g'] ['d'] 50 true, .wait 1000000] (.find [comp 98]) = .found (some c85B) ∧
      c85Last E [.insertPath ['g'] ['d'] 50 true, .wait 1000000] (.remove ['g'] c85B.name) = .raised .runtime := by decide +kernel

/-- A directory is deleted: one call per refresh period raises, and the calls between find its certificates. -/
theorem C85_deleted_stays :
    let E : Env := { file := fun _ _ => none, dir := fun t _ => if t < 10 then some [c85B] else none }
    c85Last E [.insertPath ['g'] ['d'] 50 true, .wait 1000000] (.find [comp 98]) = .raised .runtime ∧
      c85Last E [.insertPath ['g'] ['d'] 50 true, .wait 1000000, .find [comp 98]] (.find [comp 98]) = .found (some c85B) := by
  decide +kernel

/-- A file gets another certificate with the same name: the old one is found for ever. -/
theorem C85_not_replaced :
    c85Last c85Env [.insertPath ['g'] ['f'] 50 false, .wait 1000000] (.find [comp 97]) = .found (some c85A) ∧
      c85Env.file 1000000 ['f'] = some c85A' ∧ c85A' ≠ c85A := by decide +kernel

/-- A certificate is in two groups, and is removed from the first: it is not found any more, and adding it to the second again changes
nothing. -/
theorem C85_two_groups :
    c85Last c85Env [.insert ['g'] c85A, .insert ['h'] c85A, .remove ['g'] c85A.name] (.find [comp 97]) = .found none ∧
      c85Last c85Env [.insert ['g'] c85A, .insert ['h'] c85A, .remove ['g'] c85A.name] (.insert ['h'] c85A) = .done ∧
      c85Last c85Env [.insert ['g'] c85A, .insert ['h'] c85A, .remove ['g'] c85A.name, .insert ['h'] c85A] (.find [comp 97]) =
        .found none := by decide +kernel

/-- After something that is no certificate has been refused, adding a certificate with its name to the group has no effect. -/
theorem C85_refused_blocks :
    c85Last c85Env [] (.insert ['g'] c85Bad) = .raised .value ∧ c85Last c85Env [.insert ['g'] c85Bad] (.insert ['g'] c85A) = .done ∧
      c85Last c85Env [.insert ['g'] c85Bad, .insert ['g'] c85A] (.find [comp 97]) = .found none := by decide +kernel

end PyNDN.Props
