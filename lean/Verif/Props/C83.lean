import Verif.Model.ServiceBind
import Verif.Props.C82
/-
C83  A bind through the service proxy succeeds exactly if the password is that of a currently valid service entry of the user,
the services being tried in order.

`granted_iff`, `passed_on_iff`, `refused_iff`: the decision, for any lists of services and any behaviour of the proxied server.
`selects_iff` with `stamp_le_iff`: what the searches ask for.  `service_partial`: what one service says when the proxied server is
the library's own, over the network.

It is false of anonymous binds, which are not passed on (`anonymous_intercepted`), without services (`no_services`), when an entry
of a service is found twice, or a service fails in another way than by a wrong password: then neither later services nor the
fallback are asked (`error_stops`).  The time is the local one, but sent as UTC (`local_time`); the owner is compared as a string,
not as a DN (`owner_respelled`).
-/
namespace Verif.C83
open Verif.Ldap Verif.Spec Verif.Server Verif.Tree Verif.Session Verif.ServiceBind

/-! ### The decision -/

/-- The service lets in: one entry is found, and it accepts the password. -/
def Accepts (search : Str → ClientSearch.Running) (bind : Syntax.St → Client.Outcome) (s : Str) : Prop :=
  ∃ e t m x y, (search s).outcome = some .finished ∧ (search s).entries = [e] ∧ bind e = .response (.result .bindResponse t (.int 0) m x y)

/-- The service does not: nothing is found, or the password is wrong (or the search itself is not allowed). -/
inductive Refuses (search : Str → ClientSearch.Running) (bind : Syntax.St → Client.Outcome) (s : Str) : Prop where
  | nobody : (search s).outcome = some .finished → (search s).entries = [] → Refuses search bind s
  | wrong (e t m x y) : (search s).outcome = some .finished → (search s).entries = [e] →
      bind e = .response (.result .bindResponse t (.int 49) m x y) → Refuses search bind s
  | search (m) : (search s).outcome = some (.failed (.int 49) m) → Refuses search bind s

theorem verdict_yes {search : Str → ClientSearch.Running} {bind : Syntax.St → Client.Outcome} {s : Str} :
    (∃ e, verdict (search s) bind = .yes e) ↔ Accepts search bind s := by
  have htrap : ∀ code e, trapped code ≠ .yes e := by
    intro code e; unfold trapped; split <;> exact nofun
  constructor
  · rintro ⟨e, h⟩
    unfold verdict at h
    split at h
    · cases h
    · cases h
    · exact absurd h (htrap _ _)
    · rename_i ho
      split at h
      · cases h
      · rename_i x he
        unfold bindVerdict at h
        split at h
        · rename_i t code m y z hb
          split at h
          · rename_i hc
            subst hc
            exact ⟨x, t, m, y, z, ho, he, hb⟩
          · exact absurd h (htrap _ _)
        · cases h
      · cases h
  · rintro ⟨e, t, m, x, y, h1, h2, h3⟩
    exact ⟨e, by simp [verdict, h1, h2, bindVerdict, h3]⟩

theorem verdict_next {search : Str → ClientSearch.Running} {bind : Syntax.St → Client.Outcome} {s : Str} :
    verdict (search s) bind = .next ↔ Refuses search bind s := by
  have htrap : ∀ code, trapped code = .next ↔ code = .int 49 := by
    intro code; unfold trapped; split <;> simp_all
  constructor
  · intro h
    unfold verdict at h
    split at h
    · cases h
    · cases h
    · rename_i code m ho
      rw [(htrap _).mp h] at ho
      exact .search m ho
    · rename_i ho
      split at h
      · rename_i he
        exact .nobody ho he
      · rename_i x he
        unfold bindVerdict at h
        split at h
        · rename_i t code m y z hb
          split at h
          · cases h
          · rw [(htrap _).mp h] at hb
            exact .wrong x t m y z ho he hb
        · cases h
      · cases h
  · intro h
    cases h with
    | nobody h1 h2 => simp [verdict, h1, h2]
    | wrong e t m x y h1 h2 h3 => simp [verdict, h1, h2, bindVerdict, h3, trapped]
    | search m h1 => simp [verdict, h1, trapped]

/-- With what else a service ends the attempts. -/
inductive Stops (search : Str → ClientSearch.Running) (bind : Syntax.St → Client.Outcome) (s : Str) : Ends → Prop where
  /-- an LDAP error of the search -/
  | search (code m) : (search s).outcome = some (.failed code m) → code ≠ .int 49 → Stops search bind s (.ldap code)
  /-- an LDAP error of the bind -/
  | bind (e t code m x y) : (search s).outcome = some .finished → (search s).entries = [e] →
      bind e = .response (.result .bindResponse t code m x y) → code ≠ .int 0 → code ≠ .int 49 → Stops search bind s (.ldap code)
  | lost : (search s).outcome = some .lost → Stops search bind s .other
  | several (a b l) : (search s).outcome = some .finished → (search s).entries = a :: b :: l → Stops search bind s .other
  | strange (e) : (search s).outcome = some .finished → (search s).entries = [e] →
      (∀ t code m x y, bind e ≠ .response (.result .bindResponse t code m x y)) → Stops search bind s .other
  | waiting : (search s).outcome = none → Stops search bind s .waiting

theorem verdict_stop {search : Str → ClientSearch.Running} {bind : Syntax.St → Client.Outcome} {s : Str} {e : Ends} :
    verdict (search s) bind = .stop e ↔ Stops search bind s e := by
  have htrap : ∀ code, trapped code = .stop e ↔ e = .ldap code ∧ code ≠ .int 49 := by
    intro code; unfold trapped; split
    · simp_all
    · rename_i h; simp only [Verdict.stop.injEq]; exact ⟨fun h' => ⟨h'.symm, h⟩, fun h' => h'.1.symm⟩
  constructor
  · intro h
    unfold verdict at h
    split at h
    · rename_i ho; cases h; exact .waiting ho
    · rename_i ho; cases h; exact .lost ho
    · rename_i code m ho
      obtain ⟨rfl, h'⟩ := (htrap _).mp h
      exact .search code m ho h'
    · rename_i ho
      split at h
      · cases h
      · rename_i x he
        unfold bindVerdict at h
        split at h
        · rename_i t code m y z hb
          split at h
          · cases h
          · rename_i h0
            obtain ⟨rfl, h'⟩ := (htrap _).mp h
            exact .bind x t code m y z ho he hb h0 h'
        · rename_i hb; cases h; exact .strange x ho he hb
      · rename_i h1 h2
        cases h
        match he : (search s).entries with
        | [] => exact absurd he h1
        | [x] => exact absurd he (h2 x)
        | a :: b :: l => exact .several a b l ho he
  · intro h
    cases h with
    | search code m h1 h2 => simp [verdict, h1, trapped, h2]
    | bind e t code m x y h1 h2 h3 h4 h5 => simp [verdict, h1, h2, bindVerdict, h3, trapped, h4, h5]
    | lost h1 => simp [verdict, h1]
    | several a b l h1 h2 => simp [verdict, h1, h2]
    | strange x h1 h2 h3 =>
      simp only [verdict, h1, h2, bindVerdict]
    | waiting h1 => simp [verdict, h1]

/-- The services are tried in order, up to the first that does not refuse. -/
theorem tries {search : Str → ClientSearch.Running} {bind : Syntax.St → Client.Outcome} (l : List Str) :
    (tryServices search bind l = .exhausted ∧ ∀ s ∈ l, Refuses search bind s) ∨
    (∃ pre s post, l = pre ++ s :: post ∧ (∀ p ∈ pre, Refuses search bind p) ∧
      ((Accepts search bind s ∧ ∃ e, tryServices search bind l = .entry e) ∨ Stops search bind s (tryServices search bind l))) := by
  induction l with
  | nil => exact .inl ⟨rfl, nofun⟩
  | cons s ss ih =>
    cases hv : verdict (search s) bind with
    | yes e =>
      have heq : tryServices search bind (s :: ss) = .entry e := by simp [tryServices, hv]
      exact .inr ⟨[], s, ss, rfl, nofun, .inl ⟨verdict_yes.mp ⟨e, hv⟩, e, heq⟩⟩
    | stop e =>
      have heq : tryServices search bind (s :: ss) = e := by simp [tryServices, hv]
      exact .inr ⟨[], s, ss, rfl, nofun, .inr (by rw [heq]; exact verdict_stop.mp hv)⟩
    | next =>
      have heq : tryServices search bind (s :: ss) = tryServices search bind ss := by simp [tryServices, hv]
      have hr := verdict_next.mp hv
      rw [heq]
      rcases ih with ⟨h1, h2⟩ | ⟨pre, x, post, rfl, h2, h3⟩
      · exact .inl ⟨h1, fun p hp => by
          rcases List.mem_cons.mp hp with rfl | hp
          · exact hr
          · exact h2 p hp⟩
      · exact .inr ⟨s :: pre, x, post, rfl, fun p hp => by
          rcases List.mem_cons.mp hp with rfl | hp
          · exact hr
          · exact h2 p hp, h3⟩

/-- What a service says is one of the three. -/
theorem exclusive {search : Str → ClientSearch.Running} {bind : Syntax.St → Client.Outcome} {s : Str} :
    (Accepts search bind s → ¬ Refuses search bind s) ∧ ∀ e, Stops search bind s e → ¬ Accepts search bind s ∧ ¬ Refuses search bind s := by
  refine ⟨fun h h' => ?_, fun e h => ⟨fun h' => ?_, fun h' => ?_⟩⟩
  · obtain ⟨e, h⟩ := verdict_yes.mpr h
    rw [verdict_next.mpr h'] at h
    cases h
  · obtain ⟨e, h'⟩ := verdict_yes.mpr h'
    rw [verdict_stop.mpr h] at h'
    cases h'
  · rw [← verdict_stop, verdict_next.mpr h'] at h
    cases h

/-- The first that does not refuse is unique. -/
theorem first_unique {search : Str → ClientSearch.Running} {bind : Syntax.St → Client.Outcome} {pre pre' post post' : List Str} {s s' : Str}
    (h : pre ++ s :: post = pre' ++ s' :: post') (hp : ∀ p ∈ pre, Refuses search bind p) (hp' : ∀ p ∈ pre', Refuses search bind p)
    (hs : ¬ Refuses search bind s) (hs' : ¬ Refuses search bind s') : s = s' := by
  induction pre generalizing pre' with
  | nil =>
    cases pre' with
    | nil => cases h; rfl
    | cons a l => cases h; exact absurd (hp' _ List.mem_cons_self) hs
  | cons b k ih =>
    cases pre' with
    | nil => cases h; exact absurd (hp _ List.mem_cons_self) hs'
    | cons a l =>
      simp only [List.cons_append, List.cons.injEq] at h
      exact ih h.2 (fun p hp'' => hp p (List.mem_cons_of_mem _ hp'')) (fun p hp'' => hp' p (List.mem_cons_of_mem _ hp''))

/-- A search never fails with the code for success. -/
theorem failed_code (U : Unicode) (o : ClientSearch.Options) (es : List ClientSearch.Event) (code m : PyVal)
    (h : (ClientSearch.run U o es).outcome = some (.failed code m)) : code ≠ .int 0 := by
  have key : ∀ (es : List ClientSearch.Event) (s : ClientSearch.Running), (∀ code m, s.outcome = some (.failed code m) → code ≠ .int 0) →
      ∀ code m, (es.foldl (ClientSearch.step U o) s).outcome = some (.failed code m) → code ≠ .int 0 := by
    intro es
    induction es with
    | nil => intro s hs; exact hs
    | cons e es ih =>
      intro s hs
      refine ih _ ?_
      intro code m h
      unfold ClientSearch.step at h
      split at h
      · exact hs _ _ h
      · split at h
        · unfold ClientSearch.response at h
          split at h
          · split at h
            · rename_i hk
              simp only [Option.some.injEq, ClientSearch.Outcome.failed.injEq] at h
              rw [← h.1]
              rintro rfl
              exact absurd hk (by decide +kernel)
            · (repeat' split at h) <;> simp at h
            · split at h <;> simp at h
          · split at h
            · simp at h
            · simp only at h; split at h <;> simp at h
          · exact hs _ _ h
          · simp at h
        · simp at h
  exact key es ClientSearch.start nofun code m h

theorem relayed_iff {code : PyVal} (n : Int) (hn : n ≠ 2) : relayed code = n → code = .int n := by
  intro h
  unfold relayed at h
  split at h
  · rename_i c
    unfold Errors.get at h
    split at h
    · rename_i hf
      have := List.find?_some hf
      simp only [beq_iff_eq] at this
      simp only [Errors.Obj.resultCode, Option.getD_some] at h
      rw [← this, ← h]
    · rename_i c' nm _ hf
      have := List.find?_some hf
      simp only [beq_iff_eq] at this
      simp only [Errors.Obj.resultCode, Option.getD_some] at h
      rw [← this, ← h]
    · simp only [Errors.Obj.resultCode, Option.getD_none] at h
      exact absurd h.symm hn
  · exact absurd h.symm hn

/-- A request that is looked at: version 3, no critical control. -/
def Regular (version : PyVal) (controls : Option C41.Controls) : Prop := version = .int 3 ∧ ∀ l ∈ controls, ¬ C41.HasCritical l

theorem gate {services : List Str} {fallback : Bool} {search : Str → ClientSearch.Running} {bind : Syntax.St → Client.Outcome}
    {version : PyVal} {dn : Bytes} {controls : Option C41.Controls} {luck : Luck} :
    (Regular version controls ∧ handleBind services fallback search bind version dn controls luck = startSearch services fallback search bind) ∨
    (¬ Regular version controls ∧ (handleBind services fallback search bind version dn controls luck = .answer 2 ∨
      handleBind services fallback search bind version dn controls luck = .answer 12)) := by
  unfold ServiceBind.handleBind
  cases hv : checkVersion version with
  | error f =>
    refine .inr ⟨fun h => ?_, .inl (by simp only [C41.checkVersion_code hv])⟩
    rw [h.1] at hv
    simp [checkVersion] at hv
  | ok u =>
    have h3 : version = .int 3 := by
      unfold checkVersion at hv
      split at hv
      · assumption
      · split at hv <;> cases hv
    cases controls with
    | none => exact .inl ⟨⟨h3, nofun⟩, rfl⟩
    | some l =>
      by_cases hc : C41.HasCritical l
      · obtain ⟨ty, _, _, _, _, he⟩ := C41.checkEach_error hc
        refine .inr ⟨fun h => h.2 l rfl hc, ?_⟩
        simp only [checkControls, he]
        rcases C41.criticalFault_code luck ty with h | h <;> simp [h]
      · refine .inl ⟨⟨h3, fun l' h => by cases h; exact hc⟩, ?_⟩
        simp only [checkControls, C41.checkEach_ok hc]

/-- The searches of the proxy, whatever the proxied server sends. -/
def Searched (search : Str → ClientSearch.Running) : Prop := ∀ s, ∃ U o es, search s = ClientSearch.run U o es

/-- The proxy answers with success exactly if a service lets in, and those before it refuse. -/
theorem granted_iff (services : List Str) (fallback : Bool) (search : Str → ClientSearch.Running) (bind : Syntax.St → Client.Outcome)
    (hs : Searched search) (version : PyVal) (dn : Bytes) (controls : Option C41.Controls) (luck : Luck) :
    handleBind services fallback search bind version dn controls luck = .answer 0 ↔
      Regular version controls ∧
      ∃ pre s post, services = pre ++ s :: post ∧ (∀ p ∈ pre, Refuses search bind p) ∧ Accepts search bind s := by
  rcases gate (services := services) (fallback := fallback) (search := search) (bind := bind) (version := version) (dn := dn)
    (controls := controls) (luck := luck) with ⟨hr, h⟩ | ⟨hr, h⟩
  · rw [h]
    simp only [hr, true_and]
    unfold startSearch
    by_cases h0 : services = []
    · simp [h0]
    · rw [if_neg h0]
      rcases tries (search := search) (bind := bind) services with ⟨h1, h2⟩ | ⟨pre, s, post, rfl, h2, ⟨h3, e, h4⟩ | h3⟩
      · rw [h1]
        refine ⟨fun h => ?_, fun ⟨pre, s, post, h, _, h4⟩ => ?_⟩
        · cases fallback <;> simp [reply] at h
        · exact absurd (h2 s (by rw [h]; simp)) (exclusive.1 h4)
      · rw [h4]
        exact ⟨fun _ => ⟨pre, s, post, rfl, h2, h3⟩, fun _ => rfl⟩
      · have hx := exclusive.2 _ h3
        constructor
        · intro h
          cases hk : tryServices search bind (pre ++ s :: post) with
          | entry e => rw [hk] at h3; cases h3
          | exhausted => rw [hk] at h3; cases h3
          | other => rw [hk] at h; cases h
          | waiting => rw [hk] at h; cases h
          | ldap code =>
            rw [hk] at h h3
            simp only [reply, Reply.answer.injEq] at h
            rw [relayed_iff 0 (by decide) h] at h3
            cases h3 with
            | search _ m h1 _ =>
              obtain ⟨U, o, es, he⟩ := hs s
              rw [he] at h1
              exact absurd rfl (failed_code U o es _ _ h1)
            | bind _ _ _ _ _ _ _ _ _ h1 => exact absurd rfl h1
        · rintro ⟨pre', s', post', h, h4, h5⟩
          rw [first_unique h h2 h4 hx.2 (exclusive.1 h5)] at hx
          exact absurd h5 hx.1
  · constructor
    · intro h'
      rcases h with h | h <;> rw [h] at h' <;> cases h'
    · intro h'; exact absurd h'.1 hr

/-- It is passed on to the server exactly if that is wanted and all services refuse. -/
theorem passed_on_iff (services : List Str) (fallback : Bool) (search : Str → ClientSearch.Running) (bind : Syntax.St → Client.Outcome)
    (version : PyVal) (dn : Bytes) (controls : Option C41.Controls) (luck : Luck) :
    handleBind services fallback search bind version dn controls luck = .forward ↔
      Regular version controls ∧ fallback = true ∧ services ≠ [] ∧ ∀ s ∈ services, Refuses search bind s := by
  rcases gate (services := services) (fallback := fallback) (search := search) (bind := bind) (version := version) (dn := dn)
    (controls := controls) (luck := luck) with ⟨hr, h⟩ | ⟨hr, h⟩
  · rw [h]
    simp only [hr, true_and]
    unfold startSearch
    by_cases h0 : services = []
    · simp [h0]
    · rw [if_neg h0]
      rcases tries (search := search) (bind := bind) services with ⟨h1, h2⟩ | ⟨pre, s, post, rfl, h2, ⟨h3, e, h4⟩ | h3⟩
      · rw [h1]
        cases fallback <;> simp [reply, h0]
        exact h2
      · rw [h4]
        exact ⟨nofun, fun ⟨_, _, h⟩ => absurd (h s (by simp)) (exclusive.1 h3)⟩
      · refine ⟨fun h => ?_, fun ⟨_, _, h⟩ => absurd (h s (by simp)) (exclusive.2 _ h3).2⟩
        cases hk : tryServices search bind (pre ++ s :: post) with
        | exhausted => rw [hk] at h3; cases h3
        | entry e => rw [hk] at h; cases h
        | other => rw [hk] at h; cases h
        | waiting => rw [hk] at h; cases h
        | ldap code => rw [hk] at h; cases h
  · constructor
    · intro h'
      rcases h with h | h <;> rw [h] at h' <;> cases h'
    · intro h'; exact absurd h'.1 hr

/-- It is answered with `invalidCredentials` exactly if all services refuse, and it is not to be passed on. -/
theorem refused_iff (services : List Str) (fallback : Bool) (search : Str → ClientSearch.Running) (bind : Syntax.St → Client.Outcome)
    (version : PyVal) (dn : Bytes) (controls : Option C41.Controls) (luck : Luck) :
    handleBind services fallback search bind version dn controls luck = .answer 49 ↔
      Regular version controls ∧ fallback = false ∧ services ≠ [] ∧ ∀ s ∈ services, Refuses search bind s := by
  rcases gate (services := services) (fallback := fallback) (search := search) (bind := bind) (version := version) (dn := dn)
    (controls := controls) (luck := luck) with ⟨hr, h⟩ | ⟨hr, h⟩
  · rw [h]
    simp only [hr, true_and]
    unfold startSearch
    by_cases h0 : services = []
    · simp [h0]
    · rw [if_neg h0]
      rcases tries (search := search) (bind := bind) services with ⟨h1, h2⟩ | ⟨pre, s, post, rfl, h2, ⟨h3, e, h4⟩ | h3⟩
      · rw [h1]
        cases fallback <;> simp [reply, h0]
        exact h2
      · rw [h4]
        exact ⟨nofun, fun ⟨_, _, h⟩ => absurd (h s (by simp)) (exclusive.1 h3)⟩
      · refine ⟨fun h => ?_, fun ⟨_, _, h⟩ => absurd (h s (by simp)) (exclusive.2 _ h3).2⟩
        cases hk : tryServices search bind (pre ++ s :: post) with
        | exhausted => rw [hk] at h3; cases h3
        | entry e => rw [hk] at h; cases h
        | other => rw [hk] at h; cases h
        | waiting => rw [hk] at h; cases h
        | ldap code =>
          rw [hk] at h h3
          simp only [reply, Reply.answer.injEq] at h
          rw [relayed_iff 49 (by decide) h] at h3
          cases h3 with
          | search _ _ _ h1 => exact absurd rfl h1
          | bind _ _ _ _ _ _ _ _ _ _ h1 => exact absurd rfl h1
  · constructor
    · intro h'
      rcases h with h | h <;> rw [h] at h' <;> cases h'
    · intro h'; exact absurd h'.1 hr

/-- A service that fails in another way ends the attempts: neither the later services nor the server are asked. -/
theorem stopped (pre post : List Str) (s : Str) (fallback : Bool) (search : Str → ClientSearch.Running) (bind : Syntax.St → Client.Outcome)
    (version : PyVal) (dn : Bytes) (controls : Option C41.Controls) (luck : Luck) (hreg : Regular version controls)
    (hpre : ∀ p ∈ pre, Refuses search bind p) (e : Ends) (he : Stops search bind s e) :
    handleBind (pre ++ s :: post) fallback search bind version dn controls luck =
      match e with
      | .ldap code => .answer (relayed code)
      | .waiting => .waiting
      | _ => .answer 2 := by
  have htry : tryServices search bind (pre ++ s :: post) = e := by
    induction pre with
    | nil => simp [tryServices, verdict_stop.mpr he]
    | cons a l ih =>
      simp only [List.cons_append, tryServices, verdict_next.mpr (hpre a List.mem_cons_self)]
      exact ih fun p hp => hpre p (List.mem_cons_of_mem _ hp)
  rcases gate (services := pre ++ s :: post) (fallback := fallback) (search := search) (bind := bind) (version := version) (dn := dn)
    (controls := controls) (luck := luck) with ⟨_, h⟩ | ⟨hr, _⟩
  · rw [h]
    unfold startSearch
    rw [if_neg (by simp), htry]
    cases he <;> rfl
  · exact absurd hreg hr

/-! ### What the searches ask for -/

/-- A moment: year, month, day, hour, minute, second; the order of time is that of these lists. -/
def fields (t : Time) : List Nat := [t.year, t.month, t.day, t.hour, t.minute, t.second]

/-- A moment that can be written with fixed numbers of digits. -/
structure Proper (t : Time) : Prop where
  year : t.year < 10000
  month : t.month < 100
  day : t.day < 100
  hour : t.hour < 100
  minute : t.minute < 100
  second : t.second < 100

theorem digit_toNat (n : Nat) : (digit n).toNat = 48 + n % 10 := by
  unfold digit
  rw [UInt8.toNat_ofNat']
  omega

theorem two_le {a b : Nat} (ha : a < 100) (hb : b < 100) (r q : Bytes) :
    codes (.bytes (two a ++ r)) ≤ codes (.bytes (two b ++ q)) ↔ a < b ∨ (a = b ∧ codes (.bytes r) ≤ codes (.bytes q)) := by
  simp only [codes, two, List.cons_append, List.nil_append, List.map_cons, List.cons_le_cons_iff, digit_toNat]
  constructor
  · rintro (h | ⟨h1, h | ⟨h2, h⟩⟩)
    · left; omega
    · left; omega
    · right; exact ⟨by omega, h⟩
  · rintro (h | ⟨rfl, h⟩)
    · by_cases h1 : a / 10 % 10 < b / 10 % 10
      · left; omega
      · right; exact ⟨by omega, .inl (by omega)⟩
    · exact .inr ⟨rfl, .inr ⟨rfl, h⟩⟩

theorem four_le {a b : Nat} (ha : a < 10000) (hb : b < 10000) (r q : Bytes) :
    codes (.bytes (four a ++ r)) ≤ codes (.bytes (four b ++ q)) ↔ a < b ∨ (a = b ∧ codes (.bytes r) ≤ codes (.bytes q)) := by
  simp only [codes, four, List.cons_append, List.nil_append, List.map_cons, List.cons_le_cons_iff, digit_toNat]
  constructor
  · rintro (h | ⟨h1, h | ⟨h2, h | ⟨h3, h | ⟨h4, h⟩⟩⟩⟩)
    · left; omega
    · left; omega
    · left; omega
    · left; omega
    · right; exact ⟨by omega, h⟩
  · rintro (h | ⟨rfl, h⟩)
    · by_cases h1 : a / 1000 % 10 < b / 1000 % 10
      · left; omega
      · have e1 : a / 1000 = b / 1000 := by omega
        refine .inr ⟨by rw [e1], ?_⟩
        by_cases h2 : a / 100 % 10 < b / 100 % 10
        · left; omega
        · have e2 : a / 100 = b / 100 := by omega
          refine .inr ⟨by rw [e2], ?_⟩
          by_cases h3 : a / 10 % 10 < b / 10 % 10
          · left; omega
          · have e3 : a / 10 = b / 10 := by omega
            exact .inr ⟨by rw [e3], .inl (by omega)⟩
    · exact .inr ⟨rfl, .inr ⟨rfl, .inr ⟨rfl, .inr ⟨rfl, h⟩⟩⟩⟩

/-- Timestamps are ordered as strings as the moments are in time. -/
theorem stamp_le_iff (a b : Time) (ha : Proper a) (hb : Proper b) :
    codes (.bytes (timestamp a)) ≤ codes (.bytes (timestamp b)) ↔ fields a ≤ fields b := by
  unfold timestamp fields
  simp only [List.append_assoc]
  rw [four_le ha.year hb.year, two_le ha.month hb.month, two_le ha.day hb.day, two_le ha.hour hb.hour, two_le ha.minute hb.minute,
    two_le ha.second hb.second]
  simp only [List.cons_le_cons_iff, codes, List.map_cons, List.map_nil, List.le_refl, and_true]

/-- A value of an attribute of the entry. -/
def Value (e : Entry) (a : Bytes) (v : PyStr) : Prop := ∃ vs, HasAttr e (.bytes a) vs ∧ v ∈ vs

/-- A service entry of the user, valid at the time `t`. -/
structure Serves (U : Unicode) (e : Entry) (dn : Bytes) (service : Str) (t : Time) : Prop where
  kind : ∃ v, Value e (ascii "objectClass") v ∧ SameValue U v (.bytes (ascii "serviceSecurityObject"))
  owner : ∃ v, Value e (ascii "owner") v ∧ SameValue U v (.bytes dn)
  name : ∃ v, Value e (ascii "cn") v ∧ SameValue U v (.bytes (Utf8.encode service))
  begun : (∀ vs, ¬ HasAttr e (.bytes (ascii "validFrom")) vs) ∨
    ∃ u, Proper u ∧ Value e (ascii "validFrom") (.bytes (timestamp u)) ∧ fields u ≤ fields t
  notOver : (∀ vs, ¬ HasAttr e (.bytes (ascii "validUntil")) vs) ∨
    ∃ u, Proper u ∧ Value e (ascii "validUntil") (.bytes (timestamp u)) ∧ fields t ≤ fields u

/-- The times in the entry are timestamps, in octets. -/
def Dated (e : Entry) : Prop := ∀ a ∈ [ascii "validFrom", ascii "validUntil"], ∀ v, Value e a v → ∃ u, Proper u ∧ v = .bytes (timestamp u)

/-- The filter, as the server receives it. -/
def wireFilter (dn : Bytes) (service : Str) (t : Time) : Filter :=
  .and [.equal (ascii "objectClass") (ascii "serviceSecurityObject"), .equal (ascii "owner") dn, .equal (ascii "cn") (Utf8.encode service),
    .or [.not (.present (ascii "validFrom")), .le (ascii "validFrom") (timestamp t)],
    .or [.not (.present (ascii "validUntil")), .ge (ascii "validUntil") (timestamp t)]]

theorem wireFilter_eq (dn : Bytes) (service : Str) (t : Time) : serviceFilter dn service t = (wireFilter dn service t).build := by
  simp [serviceFilter, wireFilter, Filter.build, Filter.buildAll, ServiceBind.ava, octet]

theorem testable {e : Entry} (hd : Dated e) {dn : Bytes} (hdn : (PyStr.bytes dn).Decodable) (service : Str) (t : Time) :
    Testable e (wireFilter dn service t).sem := by
  simp only [wireFilter, Filter.sem, Filter.sems]
  refine .and _ fun f hf => ?_
  simp only [List.mem_cons, List.not_mem_nil, or_false] at hf
  rcases hf with rfl | rfl | rfl | rfl | rfl
  · exact .equality _ _ (by decide +kernel) ⟨"serviceSecurityObject".toList, by decide +kernel⟩
  · exact .equality _ _ (by decide +kernel) hdn
  · exact .equality _ _ (by decide +kernel) ⟨service, rfl⟩
  · refine .or _ fun f hf => ?_
    simp only [List.mem_cons, List.not_mem_nil, or_false] at hf
    rcases hf with rfl | rfl
    · exact .not _ (.present _ (by decide +kernel))
    · refine .le _ _ (by decide +kernel) fun vs v h1 h2 => ?_
      obtain ⟨u, _, rfl⟩ := hd (ascii "validFrom") (by simp) v ⟨vs, h1, h2⟩
      rfl
  · refine .or _ fun f hf => ?_
    simp only [List.mem_cons, List.not_mem_nil, or_false] at hf
    rcases hf with rfl | rfl
    · exact .not _ (.present _ (by decide +kernel))
    · refine .ge _ _ (by decide +kernel) fun vs v h1 h2 => ?_
      obtain ⟨u, _, rfl⟩ := hd (ascii "validUntil") (by simp) v ⟨vs, h1, h2⟩
      rfl

theorem equality_iff {U : Unicode} {e : Entry} {a x : PyStr} : Holds U e (.equality a x) true ↔ ∃ vs v, HasAttr e a vs ∧ v ∈ vs ∧ SameValue U v x :=
  ⟨fun h => by cases h with | equality_yes _ _ vs v h1 h2 h3 => exact ⟨vs, v, h1, h2, h3⟩, fun ⟨vs, v, h1, h2, h3⟩ => .equality_yes _ _ vs v h1 h2 h3⟩

theorem and_iff {U : Unicode} {e : Entry} {fs : List Match.Filter} : Holds U e (.and fs) true ↔ ∀ f ∈ fs, Holds U e f true :=
  ⟨fun h => by cases h with | and_yes _ h => exact h, .and_yes _⟩

theorem or_iff {U : Unicode} {e : Entry} {fs : List Match.Filter} : Holds U e (.or fs) true ↔ ∃ f ∈ fs, Holds U e f true :=
  ⟨fun h => by cases h with | or_yes _ f h1 h2 => exact ⟨f, h1, h2⟩, fun ⟨f, h1, h2⟩ => .or_yes _ f h1 h2⟩

theorem absent_iff {U : Unicode} {e : Entry} {a : PyStr} : Holds U e (.not (.present a)) true ↔ ∀ vs, ¬ HasAttr e a vs := by
  constructor
  · intro h
    generalize hb : true = b at h
    cases h with
    | not _ b h =>
      cases h with
      | present_yes => cases hb
      | present_no _ h => exact h
  · intro h; exact .not _ false (.present_no _ h)

theorem le_iff {U : Unicode} {e : Entry} {a x : PyStr} : Holds U e (.lessOrEqual a x) true ↔ ∃ vs v, HasAttr e a vs ∧ v ∈ vs ∧ codes v ≤ codes x :=
  ⟨fun h => by cases h with | le_yes _ _ vs v h1 h2 h3 => exact ⟨vs, v, h1, h2, h3⟩, fun ⟨vs, v, h1, h2, h3⟩ => .le_yes _ _ vs v h1 h2 h3⟩

theorem ge_iff {U : Unicode} {e : Entry} {a x : PyStr} : Holds U e (.greaterOrEqual a x) true ↔ ∃ vs v, HasAttr e a vs ∧ v ∈ vs ∧ codes x ≤ codes v :=
  ⟨fun h => by cases h with | ge_yes _ _ vs v h1 h2 h3 => exact ⟨vs, v, h1, h2, h3⟩, fun ⟨vs, v, h1, h2, h3⟩ => .ge_yes _ _ vs v h1 h2 h3⟩

theorem holds_serves {U : Unicode} {e : Entry} (hd : Dated e) (dn : Bytes) (service : Str) (t : Time) (ht : Proper t) :
    Holds U e (wireFilter dn service t).sem true ↔ Serves U e dn service t := by
  simp only [wireFilter, Filter.sem, Filter.sems, and_iff, or_iff, equality_iff, absent_iff, le_iff, ge_iff, List.mem_cons, List.not_mem_nil,
    or_false, forall_eq_or_imp, forall_eq, exists_eq_or_imp, exists_eq_left]
  have hval : ∀ {a : Bytes} {P : PyStr → Prop}, (∃ vs v, HasAttr e (.bytes a) vs ∧ v ∈ vs ∧ P v) ↔ ∃ v, Value e a v ∧ P v :=
    ⟨fun ⟨vs, v, h1, h2, h3⟩ => ⟨v, ⟨vs, h1, h2⟩, h3⟩, fun ⟨v, ⟨vs, h1, h2⟩, h3⟩ => ⟨vs, v, h1, h2, h3⟩⟩
  simp only [hval]
  have hfrom : (∃ v, Value e (ascii "validFrom") v ∧ codes v ≤ codes (.bytes (timestamp t))) ↔
      ∃ u, Proper u ∧ Value e (ascii "validFrom") (.bytes (timestamp u)) ∧ fields u ≤ fields t := by
    constructor
    · rintro ⟨v, h1, h2⟩
      obtain ⟨u, hu, rfl⟩ := hd _ (by simp) v h1
      exact ⟨u, hu, h1, (stamp_le_iff u t hu ht).mp h2⟩
    · rintro ⟨u, hu, h1, h2⟩
      exact ⟨_, h1, (stamp_le_iff u t hu ht).mpr h2⟩
  have hto : (∃ v, Value e (ascii "validUntil") v ∧ codes (.bytes (timestamp t)) ≤ codes v) ↔
      ∃ u, Proper u ∧ Value e (ascii "validUntil") (.bytes (timestamp u)) ∧ fields t ≤ fields u := by
    constructor
    · rintro ⟨v, h1, h2⟩
      obtain ⟨u, hu, rfl⟩ := hd _ (by simp) v h1
      exact ⟨u, hu, h1, (stamp_le_iff t u ht hu).mp h2⟩
    · rintro ⟨u, hu, h1, h2⟩
      exact ⟨_, h1, (stamp_le_iff t u ht hu).mpr h2⟩
  rw [hfrom, hto]
  exact ⟨fun ⟨h1, h2, h3, h4, h5⟩ => ⟨h1, h2, h3, h4, h5⟩, fun ⟨h1, h2, h3, h4, h5⟩ => ⟨h1, h2, h3, h4, h5⟩⟩

/-- The search for a service selects exactly the service entries of the user that are valid at the time. -/
theorem selects_iff (U : Unicode) (hU : Sane U) (e : Entry) (he : WellNamed e) (hd : Dated e) (dn : Bytes) (hdn : (PyStr.bytes dn).Decodable)
    (service : Str) (t : Time) (ht : Proper t) :
    serviceFilter dn service t = (wireFilter dn service t).build ∧
    ∃ b, Match.eval U e (wireFilter dn service t).sem = .ok b ∧ (b = true ↔ Serves U e dn service t) := by
  refine ⟨wireFilter_eq dn service t, ?_⟩
  obtain ⟨b, h1, h2⟩ := C17.eval_correct_partial U hU e he _ (testable hd hdn service t)
  refine ⟨b, h1, ?_⟩
  rw [← holds_serves hd dn service t ht]
  constructor
  · rintro rfl; exact h2
  · intro h; exact (C17.holds_unique _ _ _ h h2).symm

/-! ### One service, with the library's own server, over the network -/

/-- The password decides what the service says. -/
def Decides (env : Env) (luck : Luck) (st : State) (k : Nat) (n : Node) (e : Syntax.St) : Prop :=
  ∀ (app : Client.App) (fuel c : Nat) (w : Client.World) (pw : Bytes), (w.conns c).connected = true → 0 < w.nextId ∧ w.nextId < 2 ^ 31 →
    (w.conns c).onwire.lookup w.nextId = none → (Msg.mk w.nextId (.bindSimple 3 (Utf8.encode e.dn.text) pw) none).size < lengthLimit →
    ∃ st' o, Exchanged env luck app fuel c w (bindCall c e pw) st st' o ∧ st'.heap = st.heap ∧
      (Password.tryBind env.U env.sha1 env.passwordTextFirst n.entry (.bytes pw) = .ok true → bindVerdict e o = .yes e ∧ st'.bound = some k) ∧
      (Password.tryBind env.U env.sha1 env.passwordTextFirst n.entry (.bytes pw) = .ok false → bindVerdict e o = .next ∧ st'.bound = st.bound) ∧
      (∀ x, bindVerdict e o = .yes x → x = e ∧ Password.tryBind env.U env.sha1 env.passwordTextFirst n.entry (.bytes pw) = .ok true)

theorem decides (env : Env) (luck : Luck) (st : State) (hb : C67.Built env st.heap) (hdist : Distinct env.U st.heap)
    (htext : ∀ e, Fit (luck.text e)) (hdns : ∀ n ∈ st.heap, Fit (Utf8.encode n.entry.dn.text)) (k : Nat) (n : Node)
    (hk : Below st.heap 0 k) (hn : st.heap[k]? = some n) (ht : Textual n.entry.dn) (hne : n.entry.dn ≠ []) (e : Syntax.St)
    (he : e.dn = n.entry.dn) : Decides env luck st k n e := by
  intro app fuel c w pw hconn hid hfree hsize
  have hv := hb.inv.1
  have hpos : 0 < st.heap.length := by
    obtain ⟨m, hm, _⟩ := hb.inv.2
    exact (List.getElem?_eq_some_iff.mp hm).1
  have hlook : lookup env.U st.heap 0 n.entry.dn = .ok k := (lookup_iff hv hdist hpos _ _).mpr ⟨hk, by rw [dnOf_eq hn]⟩
  have hempty : Utf8.encode e.dn.text ≠ [] := by rw [he]; exact C75.text_ne ht hne
  have hread : readDn env.U (.bytes (Utf8.encode e.dn.text)) = .ok n.entry.dn := by
    simp only [readDn, Utf8.decode_encode, bind, Except.bind, he]
    exact C75.parse_text ht
  have hver : ∀ u, C42.Verified env st (.bind 0x40 (.int 3) (.bytes (Utf8.encode e.dn.text)) (.simple (.bytes pw))) none u ↔
      u = some k ∧ Password.tryBind env.U env.sha1 env.passwordTextFirst n.entry (.bytes pw) = .ok true := by
    intro u
    constructor
    · intro h
      generalize hdn : Utf8.encode e.dn.text = b at h hempty
      cases h with
      | anonymous _ => exact absurd rfl hempty
      | user _ _ hs hp hl hi ha hpw =>
        rw [← hdn, Utf8.decode_encode] at hs
        cases hs
        rw [he, C75.parse_text ht] at hp
        cases hp
        rw [hlook] at hl
        cases hl
        rw [hn] at hi
        cases hi
        cases ha
        exact ⟨rfl, hpw⟩
    · rintro ⟨rfl, hpw⟩
      exact .user nofun hempty (Utf8.decode_encode _) (by rw [he]; exact C75.parse_text ht) hlook hn (.simple _) hpw
  obtain ⟨s, code, m, x, h1, h2, henc, h3, h4, h5⟩ := C82.bind_served env luck st w.nextId hid (Utf8.encode e.dn.text) pw htext hdns
  have hex := exchange env luck st app fuel c w hconn (by omega) hfree (bindCall c e pw) .plain nofun
    (.bindSimple 3 (Utf8.encode e.dn.text) pw) (.bindResponse code m x none) trivial (by simp only [bindCall, Client.call]; rfl) rfl hsize s h1 h2
    (by intro h; cases h) rfl henc
  refine ⟨s.state, _, hex, h3, fun hpw => ?_, fun hpw => ?_, fun y hy => ?_⟩
  · rcases h4 with ⟨rfl, hvf⟩ | ⟨_, _, hvf⟩
    · exact ⟨rfl, ((hver _).mp hvf).1⟩
    · exact absurd ((hver _).mpr ⟨rfl, hpw⟩) (hvf _)
  · have hc := h5 _ _ _ hempty hread hlook hn hpw
    subst hc
    rcases h4 with ⟨h, _⟩ | ⟨_, hbd, _⟩
    · cases h
    · exact ⟨rfl, hbd⟩
  · rcases h4 with ⟨rfl, hvf⟩ | ⟨hc, _, _⟩
    · refine ⟨?_, ((hver _).mp hvf).2⟩
      have hy' : Verdict.yes e = .yes y := hy
      cases hy'
      rfl
    · have hy' : (if PyVal.int code = .int 0 then Verdict.yes e else trapped (.int code)) = .yes y := hy
      rw [if_neg fun h => hc (by cases h; rfl)] at hy'
      unfold trapped at hy'
      split at hy' <;> cases hy'

theorem verdict_nodes {R : Nat → Syntax.St → Prop} {r : ClientSearch.Running} {ks : List Nat} (ho : r.outcome = some .finished)
    (he : Each R ks r.entries) (hn : ks.Nodup) :
    ((∀ k, k ∉ ks) → ∀ bind, verdict r bind = .next) ∧
    (∀ k k', k ∈ ks → k' ∈ ks → k ≠ k' → ∀ bind, verdict r bind = .stop .other) ∧
    (∀ k, k ∈ ks → (∀ k' ∈ ks, k' = k) → ∃ e, (∀ bind, verdict r bind = bindVerdict e (bind e)) ∧ R k e) := by
  unfold verdict
  simp only [ho]
  generalize r.entries = es at he
  cases he with
  | nil => exact ⟨fun _ _ => rfl, nofun, nofun⟩
  | @cons a b as bs h1 h2 =>
    refine ⟨fun h => absurd List.mem_cons_self (h a), fun k k' hk hk' hne => ?_, fun k hk hu => ?_⟩
    · cases h2 with
      | nil => exact absurd ((List.mem_singleton.mp hk).trans (List.mem_singleton.mp hk').symm) hne
      | cons _ _ => exact fun _ => rfl
    · cases h2 with
      | nil => exact ⟨b, fun _ => rfl, by rw [List.mem_singleton.mp hk]; exact h1⟩
      | @cons a' b' as' bs' h3 _ =>
        have e1 := hu a List.mem_cons_self
        have e2 := hu a' (List.mem_cons_of_mem _ List.mem_cons_self)
        rw [List.nodup_cons] at hn
        exact absurd (by rw [e1, ← e2]; exact List.mem_cons_self) hn.1

/-- **C83** The proxy asks the library's own server about one service.  If no node below the base is a service entry of the user,
valid at the time, the next service is tried; if one is, its password decides. -/
theorem service_partial (env : Env) (hU : Sane env.U) (luck : Luck) (st : State) (hb : C67.Built env st.heap) (hdist : Distinct env.U st.heap)
    (htext : ∀ e, Fit (luck.text e)) (hdns : ∀ n ∈ st.heap, Fit (Utf8.encode n.entry.dn.text))
    (w : Client.World) (app : Client.App) (fuel c : Nat) (happ : Searches env.U options w.deferreds.length app)
    (hnew : responsesTo w.deferreds.length w.log = []) (hconn : (w.conns c).connected = true) (hid : 0 < w.nextId ∧ w.nextId < 2 ^ 31)
    (hfree : (w.conns c).onwire.lookup w.nextId = none)
    (d : Dn.Dn) (hd : Textual d) (j : Nat) (hj : lookup env.U st.heap 0 d = .ok j)
    (dn : Bytes) (hdn : (PyStr.bytes dn).Decodable) (service : Str) (t : Time) (ht : Proper t)
    (hent : ∀ k n, Below st.heap j k → st.heap[k]? = some n →
      C67.Sendable n.entry [ascii "1.1"] ∧ Textual n.entry.dn ∧ n.entry.dn ≠ [] ∧ Dated n.entry)
    (hsize : (Msg.mk w.nextId (.search (Utf8.encode d.text) 2 0 0 0 false (wireFilter dn service t) [ascii "1.1"]) none).size < lengthLimit) :
    let p : Client.Pending := ⟨w.deferreds.length, true, true, .plain⟩
    let w₁ := Client.call app fuel w (.sendMultiEx c (serviceSearch d dn service t) none true)
    let Found := fun k => Below st.heap j k ∧ ∃ n, st.heap[k]? = some n ∧ Serves env.U n.entry dn service t
    ∃ out, w₁.log = w.log ++ [.made c w.nextId, .sent c w.nextId p (serviceSearch d dn service t), .written c out] ∧
      ∀ segs, segs.flatten = out → ∃ sent back,
        (Conn.feed (serverHandle env luck) (Conn.fresh (st, [])) segs).st = (st, sent) ∧
        (Conn.feed (serverHandle env luck) (Conn.fresh (st, [])) segs).dead = false ∧
        Wires (sent.map fun x => .message x.1 x.2 none) back ∧
        ∀ segs', segs'.flatten = back →
          let s := Conn.feed (clientHandle app fuel c) (Conn.fresh w₁) segs'
          let r := ClientSearch.run env.U options ((responsesTo p.d s.st.log).map .response)
          s.dead = false ∧
          ((∀ k, ¬ Found k) → ∀ bind, verdict r bind = .next) ∧
          (∀ k k', Found k → Found k' → k ≠ k' → ∀ bind, verdict r bind = .stop .other) ∧
          (∀ k n, Found k → (∀ k', Found k' → k' = k) → st.heap[k]? = some n →
            ∃ e, (∀ bind, verdict r bind = bindVerdict e (bind e)) ∧ e.dn = n.entry.dn ∧ Decides env luck st k n e) := by
  intro p w₁ Found
  have hv := hb.inv.1
  have hpos : 0 < st.heap.length := by
    obtain ⟨m, hm, _⟩ := hb.inv.2
    exact (List.getElem?_eq_some_iff.mp hm).1
  obtain ⟨h0j, _⟩ := (lookup_iff hv hdist hpos _ _).mp hj
  have hlt : j < st.heap.length := h0j.lt_length hv hpos
  have hev : ∀ k n, Below st.heap j k → st.heap[k]? = some n →
      ∃ b, Match.eval env.U n.entry (wireFilter dn service t).sem = .ok b ∧ (b = true ↔ Serves env.U n.entry dn service t) := by
    intro k n hk hn
    obtain ⟨h1, _, _, h2⟩ := hent k n hk hn
    exact (selects_iff env.U hU n.entry h1.named h2 dn hdn service t ht).2
  have hsr : serviceSearch d dn service t = (Op.search (Utf8.encode d.text) 2 0 0 0 false (wireFilter dn service t) [ascii "1.1"]).build := by
    simp only [serviceSearch, Session.searchRequest, wireFilter_eq, Op.build, boolVal]
  obtain ⟨out, h1, h2⟩ := C75.search env hU luck st hb w app fuel c options (fun _ => rfl) happ hnew hconn hid hfree d hd 2 0 0 0 false
    (wireFilter dn service t) [ascii "1.1"] (by decide +kernel) (fun _ => List.pairwise_singleton _ _) .sub .sub (.inr (by decide)) j hj hlt
    (fun k hk n hn => by obtain ⟨b, h, _⟩ := hev k n hk hn; exact ⟨b, h⟩) (fun k n hk hn => ⟨(hent k n hk hn).1, (hent k n hk hn).2.1⟩) hsize
  rw [← hsr] at h1 h2
  refine ⟨out, h1, fun segs hsegs => ?_⟩
  obtain ⟨sent, back, h3, h4, h5, h6⟩ := h2 segs hsegs
  refine ⟨sent, back, h3, h4, h5, fun segs' hsegs' => ?_⟩
  obtain ⟨g1, _, _, g4, ks, g5, g6, g7, _⟩ := h6 segs' hsegs'
  have hks : ∀ k, k ∈ ks ↔ Found k := by
    intro k
    rw [g6]
    constructor
    · rintro ⟨hk, n, hn, hm⟩
      obtain ⟨b, h1, h2⟩ := hev k n hk hn
      rw [hm] at h1; cases h1
      exact ⟨hk, n, hn, h2.mp rfl⟩
    · rintro ⟨hk, n, hn, hm⟩
      obtain ⟨b, h1, h2⟩ := hev k n hk hn
      exact ⟨hk, n, hn, by rw [h1, h2.mpr hm]⟩
  obtain ⟨f1, f2, f3⟩ := verdict_nodes g4 g5 g7
  refine ⟨g1, fun h => f1 fun k hk => h k ((hks k).mp hk), fun k k' hk hk' hne => f2 k k' ((hks k).mpr hk) ((hks k').mpr hk') hne,
    fun k n hk hu hn => ?_⟩
  obtain ⟨e, he, m, hm, hcopy⟩ := f3 k ((hks k).mpr hk) fun k' hk' => hu k' ((hks k').mp hk')
  rw [hn] at hm
  cases hm
  have hx := hent k n hk.1 hn
  exact ⟨e, he, hcopy.dn, decides env luck st hb hdist htext hdns k n
    (by obtain ⟨l, hl⟩ := h0j; obtain ⟨m, hm⟩ := hk.1; exact ⟨_, path_append hl hm⟩) hn hx.2.1 hx.2.2.1 e hcopy.dn⟩

/-! ### Example: one service entry -/

def owner : Bytes := ascii "uid=joe,dc=a"

/-- Valid from the year 2000 on. -/
def account : Entry := ⟨[[⟨['c','n'], ['m','a','i','l']⟩]], [(.bytes (ascii "objectClass"), [.bytes (ascii "serviceSecurityObject")]),
  (.bytes (ascii "owner"), [.bytes owner]), (.bytes (ascii "cn"), [.bytes (ascii "mail")]),
  (.bytes (ascii "validFrom"), [.bytes (timestamp ⟨2000, 1, 1, 0, 0, 0⟩)]), (.bytes (ascii "userPassword"), [.bytes (ascii "x")])]⟩

def now : Time := ⟨2026, 11, 16, 12, 30, 0⟩

theorem now_proper : Proper now := ⟨by decide, by decide, by decide, by decide, by decide, by decide⟩

theorem account_named : WellNamed account := by
  refine ⟨?_, ?_⟩
  · intro k vs hm
    have : ∀ p ∈ account.attrs, p.1.Ascii := by decide +kernel
    exact this _ hm
  · unfold SameName; decide +kernel

theorem account_attr {a : Bytes} {vs : List PyStr} (h : HasAttr account (.bytes a) vs) :
    ∃ p ∈ account.attrs, SameName p.1 (.bytes a) ∧ p.2 = vs := by
  obtain ⟨k, hk, hs⟩ := h
  exact ⟨_, hk, hs, rfl⟩

theorem account_dated : Dated account := by
  intro a ha v ⟨vs, h, hv⟩
  obtain ⟨p, hp, hs, rfl⟩ := account_attr h
  have key : ∀ a ∈ [ascii "validFrom", ascii "validUntil"], ∀ p ∈ account.attrs,
      PyStr.lowerBytes p.1.toBytes = PyStr.lowerBytes (PyStr.bytes a).toBytes → p.2 = [.bytes (timestamp ⟨2000, 1, 1, 0, 0, 0⟩)] := by decide +kernel
  have := key a ha p hp hs
  rw [this] at hv
  exact ⟨⟨2000, 1, 1, 0, 0, 0⟩, ⟨by decide, by decide, by decide, by decide, by decide, by decide⟩, List.mem_singleton.mp hv⟩

theorem account_value {a v : Bytes} (h : (PyStr.bytes a, [PyStr.bytes v]) ∈ account.attrs) : Value account a (.bytes v) :=
  ⟨_, ⟨_, h, rfl⟩, List.mem_cons_self⟩

theorem account_serves : Serves asciiTables account owner "mail".toList now := by
  refine ⟨⟨_, account_value (v := ascii "serviceSecurityObject") (by decide +kernel), rfl⟩, ⟨_, account_value (v := owner) (by decide +kernel), rfl⟩,
    ⟨_, account_value (v := ascii "mail") (by decide +kernel), by unfold SameValue; decide +kernel⟩, .inr ⟨⟨2000, 1, 1, 0, 0, 0⟩,
      ⟨by decide, by decide, by decide, by decide, by decide, by decide⟩, account_value (by decide +kernel), by decide +kernel⟩, .inl ?_⟩
  intro vs h
  obtain ⟨p, hp, hs, _⟩ := account_attr h
  have key : ∀ p ∈ account.attrs, PyStr.lowerBytes p.1.toBytes ≠ PyStr.lowerBytes (PyStr.bytes (ascii "validUntil")).toBytes := by decide +kernel
  exact key p hp hs

theorem account_sendable : C67.Sendable account [ascii "1.1"] := by
  refine ⟨account_named, ?_, ⟨by unfold Fit; decide +kernel, by decide, ?_, by decide⟩⟩
  · intro k vs hm
    have : ∀ p ∈ account.attrs, ∀ v ∈ p.2, v.isText = false := by decide +kernel
    exact .inr (this _ hm)
  · intro k vs hm
    have : ∀ p ∈ account.attrs, p.1.toBytes.length < 2 ^ 32 ∧ p.2.length < 2 ^ 32 ∧ ∀ v ∈ p.2, v.toBytes.length < 2 ^ 32 := by decide +kernel
    exact this _ hm

theorem account_textual : Textual account.dn := ⟨by decide, by decide⟩

theorem only (k : Nat) (n : Node) (hn : (single account)[k]? = some n) : k = 0 ∧ n = ⟨account, none, []⟩ := by
  match k with
  | 0 => exact ⟨rfl, (Option.some.inj hn).symm⟩
  | k + 1 => simp [single] at hn

theorem account_distinct : Distinct asciiTables (single account) := by
  rintro i k k' c c' ⟨n, hn, hc⟩ _ _
  rw [(only i n hn).2] at hc
  cases hc

theorem fit_account : ∀ n ∈ single account, Fit (Utf8.encode n.entry.dn.text) := by
  intro n hn
  rw [List.mem_singleton.mp hn]
  unfold Fit; decide +kernel

example := selects_iff asciiTables asciiTables_sane account account_named account_dated owner ⟨"uid=joe,dc=a".toList, by decide +kernel⟩
  "mail".toList now now_proper

example := service_partial C40.env asciiTables_sane C40.luck ⟨single account, none⟩ (.start account) account_distinct C82.fit_luck fit_account
  C75.world (C75.program asciiTables options 0) 0 0
  (C75.program_searches _ _ _) rfl (by decide +kernel) (by decide +kernel) (by decide +kernel) account.dn account_textual 0 (by decide +kernel)
  owner ⟨"uid=joe,dc=a".toList, by decide +kernel⟩ "mail".toList now now_proper (fun k n _ hn => by
    rw [(only k n hn).2]; exact ⟨account_sendable, account_textual, by decide, account_dated⟩) (Nat.lt_trans (by decide +kernel) two64_lt_limit)

/-- What a server finds for `mail` and for other services, and what it says to a right password. -/
def found (s : Str) : ClientSearch.Running :=
  ClientSearch.run asciiTables options ((if s = "mail".toList then [.response (.searchEntry 0x44 (.bytes (ascii "cn=mail")) [])] else []) ++
    [.response (.result .searchResultDone 0x45 (.int 0) (.bytes []) (.bytes []) .none)])

theorem found_searched : Searched found := fun _ => ⟨_, _, _, rfl⟩

def answers (code : Int) : Syntax.St → Client.Outcome := fun _ => .response (.result .bindResponse 0x41 (.int code) (.bytes []) (.bytes []) .none)

/-- The second of three services lets in. -/
example : ServiceBind.handleBind ["ftp".toList, "mail".toList, "web".toList] true found (answers 0) (.int 3) owner none C40.luck = .answer 0 := by
  refine (granted_iff _ _ _ _ found_searched _ _ _ _).mpr ⟨⟨rfl, nofun⟩, ["ftp".toList], _, ["web".toList], rfl, ?_, ?_⟩
  · intro p hp
    rw [List.mem_singleton.mp hp]
    exact .nobody (by decide +kernel) (by decide +kernel)
  · exact ⟨Syntax.init asciiTables [[⟨['c','n'], ['m','a','i','l']⟩]] [] false, _, _, _, _, by decide +kernel, by decide +kernel, rfl⟩

/-- A wrong password is passed on, or refused. -/
example : ServiceBind.handleBind ["mail".toList] true found (answers 49) (.int 3) owner none C40.luck = .forward ∧
    ServiceBind.handleBind ["mail".toList] false found (answers 49) (.int 3) owner none C40.luck = .answer 49 := by
  have h : ∀ s ∈ ["mail".toList], Refuses found (answers 49) s := by
    intro s hs
    rw [List.mem_singleton.mp hs]
    exact .wrong (Syntax.init asciiTables [[⟨['c','n'], ['m','a','i','l']⟩]] [] false) _ _ _ _ (by decide +kernel) (by decide +kernel) rfl
  exact ⟨(passed_on_iff ..).mpr ⟨⟨rfl, nofun⟩, rfl, by simp, h⟩, (refused_iff ..).mpr ⟨⟨rfl, nofun⟩, rfl, by simp, h⟩⟩

/-! ### Where the claim fails -/

/-- An anonymous bind is not passed on: it is treated as that of a user with the empty name, and refused. -/
theorem anonymous_intercepted : ∃ (services : List Str) (search : Str → ClientSearch.Running) (bind : Syntax.St → Client.Outcome),
    Searched search ∧ ∀ luck, ServiceBind.handleBind services false search bind (.int 3) [] none luck = .answer 49 :=
  ⟨["ftp".toList], found, answers 0, found_searched, fun luck => (refused_iff ..).mpr ⟨⟨rfl, nofun⟩, rfl, by simp, fun s hs => by
    rw [List.mem_singleton.mp hs]
    exact .nobody (by decide +kernel) (by decide +kernel)⟩⟩

/-- Without services, every bind is an error, even if it should be passed on. -/
theorem no_services (search : Str → ClientSearch.Running) (bind : Syntax.St → Client.Outcome) (dn : Bytes) (luck : Luck) :
    ServiceBind.handleBind [] true search bind (.int 3) dn none luck = .answer 2 := rfl

/-- `unwillingToPerform`, for one service, hides a later one that would let in. -/
theorem error_stops : ∃ (search : Str → ClientSearch.Running) (bind : Syntax.St → Client.Outcome), Searched search ∧
    Accepts search bind "mail".toList ∧
    ∀ luck, ServiceBind.handleBind ["ftp".toList, "mail".toList] true search bind (.int 3) owner none luck = .answer 53 := by
  let search : Str → ClientSearch.Running := fun s => if s = "mail".toList then found s else
    ClientSearch.run asciiTables options [.response (.result .searchResultDone 0x45 (.int 53) (.bytes []) (.bytes []) .none)]
  refine ⟨search, answers 0, fun s => ?_, ?_, fun luck => ?_⟩
  · by_cases h : s = "mail".toList
    · exact ⟨_, _, _, if_pos h⟩
    · exact ⟨_, _, _, if_neg h⟩
  · exact ⟨Syntax.init asciiTables [[⟨['c','n'], ['m','a','i','l']⟩]] [] false, _, _, _, _, by decide +kernel, by decide +kernel, rfl⟩
  · have h := stopped [] ["mail".toList] "ftp".toList true search (answers 0) (.int 3) owner none luck ⟨rfl, nofun⟩ nofun (.ldap (.int 53))
      (.search (.int 53) (.bytes []) (by decide +kernel) (by decide))
    exact h.trans (by decide +kernel)

/-- The clock shows 13:00 in a place two hours east of Greenwich.  An entry that is valid from 12:30 UTC on, an hour and a half
later, is selected. -/
theorem local_time : ∃ (clock utc begin_ : Time), Proper clock ∧ Proper utc ∧ Proper begin_ ∧ clock = { utc with hour := utc.hour + 2 } ∧
    ¬ fields begin_ ≤ fields utc ∧ codes (.bytes (timestamp begin_)) ≤ codes (.bytes (timestamp clock)) :=
  ⟨⟨2026, 11, 16, 13, 0, 0⟩, ⟨2026, 11, 16, 11, 0, 0⟩, ⟨2026, 11, 16, 12, 30, 0⟩, ⟨by decide, by decide, by decide, by decide, by decide, by decide⟩,
    ⟨by decide, by decide, by decide, by decide, by decide, by decide⟩, ⟨by decide, by decide, by decide, by decide, by decide, by decide⟩, rfl,
    by decide, by decide +kernel⟩

/-- A bind with the owner's DN, written with a space, does not find the entry. -/
theorem owner_respelled : ∃ dn' : Bytes, readDn asciiTables (.bytes dn') = readDn asciiTables (.bytes owner) ∧
    Match.eval asciiTables account (wireFilter owner "mail".toList now).sem = .ok true ∧
    Match.eval asciiTables account (wireFilter dn' "mail".toList now).sem = .ok false :=
  ⟨ascii "uid=joe, dc=a", by decide +kernel, by decide +kernel, by decide +kernel⟩

end Verif.C83
