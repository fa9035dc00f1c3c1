import Verif.Spec.FindServer
import Verif.Props.C60
import Verif.Lemmas.Dn
/-
C110  The tool that finds servers.

Full statement: for every DN that is given, the tool asks the DNS for the LDAP service of the domain of the DN, and prints each server
named in the answer once; it ends when all questions are answered, and its exit status is 0 exactly if every DN has a server.
Proved: what is asked for (`asked_right_partial`), what is printed, when the tool ends and with which status (`printed_partial`, `status_iff`).
Missing: a DN without a domain is asked for as `None` (`no_domain`); one DN that cannot be read keeps all others from being
answered (`one_bad`); the status is 0 also if there is no server (`nothing_found`), and after the usage message (`usage_iff`); servers of the additional
records are printed although the source means to suppress them (`additional_printed`).
-/
namespace Verif.C110
open Verif.Dn Verif.FindServer Verif.Spec.FindServer

/-- The name asked for is that of the service of the domain, which the trailing DC components give. -/
theorem asked_right_partial (upper : Str → Str) (pre suf : Dn) (vs : List Str) (hs : List.Forall₂ (C60.IsDC upper) suf vs)
    (hp : ∀ r v, pre.getLast? = some r → ¬ C60.IsDC upper r v) (hv : vs ≠ []) :
    question upper (pre ++ suf) = "_ldap._tcp.".toList ++ ['.'].intercalate vs := by
  unfold question
  rw [C60.domain_spec upper pre suf vs hs hp, if_neg hv]
  rfl

/-- All questions are asked exactly if all DNs can be read, one for each, in order. -/
theorem ask_iff (U : Unicode) (upper : Str → Str) (dns : List Str) (qs : List Str) :
    ask U upper dns = (qs, .ok ()) ↔ ∃ ds, List.Forall₂ (fun s d => Dn.parse U s = .ok d) dns ds ∧ qs = ds.map (question upper) := by
  induction dns generalizing qs with
  | nil =>
    constructor
    · intro h; cases h; exact ⟨[], .nil, rfl⟩
    · rintro ⟨ds, h, rfl⟩; cases h; rfl
  | cons s ss ih =>
    unfold ask
    cases hp : Dn.parse U s with
    | error e =>
      constructor
      · intro h; cases h
      · rintro ⟨ds, h, rfl⟩
        cases h with
        | cons h1 _ => rw [hp] at h1; cases h1
    | ok d =>
      simp only [Prod.mk.injEq]
      constructor
      · rintro ⟨rfl, h⟩
        obtain ⟨ds, h1, h2⟩ := (ih (ask U upper ss).1).mp (Prod.ext rfl h)
        exact ⟨d :: ds, .cons hp h1, by rw [h2]; rfl⟩
      · rintro ⟨ds, h, rfl⟩
        cases h with
        | cons h1 h2 =>
          rw [hp] at h1
          cases h1
          have := (ih _).mpr ⟨_, h2, rfl⟩
          rw [this]
          exact ⟨rfl, rfl⟩

theorem records_text (dn : Str) (l : List Record) : l.flatMap (printRecord dn) =
    (l.filterMap fun r => match r with
      | .srv x => some x
      | .other => none).flatMap (line dn) := by
  induction l with
  | nil => rfl
  | cons r l ih =>
    rw [List.flatMap_cons, ih]
    cases r with
    | srv x => rfl
    | other => rfl

theorem printAnswer_text (dn : Str) (sections : List (List Record)) : printAnswer dn sections = textFor dn (.found sections) := by
  have h : printAnswer dn sections = sections.flatten.flatMap (printRecord dn) := by
    unfold printAnswer
    induction sections with
    | nil => rfl
    | cons l ls ih => rw [List.flatMap_cons, ih, List.flatten_cons, List.flatMap_append]
  rw [h, records_text]
  rfl

def isFailed : Reply → Bool
  | .failed _ => true
  | .found _ => false

theorem isFailed_iff (replies : List (Nat × Reply)) : (replies.any fun p => isFailed p.2) = true ↔ ∃ p ∈ replies, ∃ m, p.2 = .failed m := by
  rw [List.any_eq_true]
  refine exists_congr fun p => and_congr_right fun _ => ?_
  cases p.2 <;> simp [isFailed]

theorem replies_fold (dns : List Str) : ∀ (replies : List (Nat × Reply)) (s : St), Fitting dns replies →
    replies.foldl (reply dns) s = ⟨s.out ++ replies.flatMap (fun p => textFor ((dns[p.1]?).getD []) p.2),
      if (replies.any fun p => isFailed p.2) = true then 1 else s.status, s.done ++ replies.map (·.1)⟩ := by
  intro replies
  induction replies with
  | nil => intro s _; simp
  | cons p ps ih =>
    intro s h
    obtain ⟨i, r⟩ := p
    have hp : i < dns.length := h (i, r) (by simp)
    have h1 : dns[i]? = some dns[i] := List.getElem?_eq_getElem hp
    rw [List.foldl_cons, ih _ (fun q hq => h q (List.mem_cons_of_mem _ hq))]
    have hr : reply dns s (i, r) = ⟨s.out ++ textFor dns[i] r, if isFailed r = true then 1 else s.status, s.done ++ [i]⟩ := by
      unfold reply
      simp only [h1]
      cases r with
      | found sections => rw [← printAnswer_text]; rfl
      | failed m =>
        have : textFor dns[i] (.failed m) = "ERROR: ".toList ++ m ++ ['\n'] := rfl
        rw [this]
        generalize "ERROR: ".toList = e
        simp [isFailed]
    rw [hr, List.flatMap_cons, List.map_cons, List.any_cons]
    simp only [h1, Option.getD_some, List.append_assoc, List.singleton_append]
    congr 1
    cases isFailed r
    · rw [Bool.false_or]; rfl
    · simp

/-- What the tool prints: for each reply, in the order in which they come, all its servers, or the failure; it ends when all questions are
answered, with a status of 1 exactly if one of them failed. -/
theorem printed_partial (U : Unicode) (upper : Str → Str) (dns qs : List Str) (h : ask U upper dns = (qs, .ok ())) (replies : List (Nat × Reply))
    (hf : Fitting dns replies) :
    ((∀ i < dns.length, i ∈ replies.map (·.1)) → ∃ status, FindServer.main U upper dns replies =
      .exit (replies.flatMap fun p => textFor ((dns[p.1]?).getD []) p.2) status ∧ (status = 1 ∨ status = 0) ∧
      (status = 1 ↔ ∃ p ∈ replies, ∃ m, p.2 = .failed m)) ∧
    ((∃ i < dns.length, i ∉ replies.map (·.1)) → FindServer.main U upper dns replies =
      .waiting (replies.flatMap fun p => textFor ((dns[p.1]?).getD []) p.2)) := by
  unfold FindServer.main
  rw [h]
  simp only [replies_fold dns replies _ hf, List.nil_append]
  constructor
  · intro ha
    rw [if_pos (by simpa [List.all_eq_true] using ha)]
    refine ⟨_, rfl, ?_, ?_⟩
    · split <;> simp
    · rw [← isFailed_iff]
      cases replies.any fun p => isFailed p.2 <;> simp
  · rintro ⟨i, hi, hn⟩
    rw [if_neg]
    intro hc
    rw [List.all_eq_true] at hc
    have := hc i (List.mem_range.mpr hi)
    exact hn (by simpa [List.contains_iff_mem] using this)

/-- The status is 0 exactly if all questions are answered without a failure. -/
theorem status_iff (U : Unicode) (upper : Str → Str) (dns qs : List Str) (h : ask U upper dns = (qs, .ok ())) (replies : List (Nat × Reply))
    (hf : Fitting dns replies) :
    (∃ out, FindServer.main U upper dns replies = .exit out 0) ↔
      (∀ i < dns.length, i ∈ replies.map (·.1)) ∧ ∀ p ∈ replies, ∃ sections, p.2 = .found sections := by
  obtain ⟨h1, h2⟩ := printed_partial U upper dns qs h replies hf
  by_cases ha : ∀ i < dns.length, i ∈ replies.map (·.1)
  · obtain ⟨st, h3, h4, h5⟩ := h1 ha
    rw [h3]
    constructor
    · rintro ⟨out, e⟩
      have e0 : st = 0 := by injection e
      refine ⟨ha, fun p hp => ?_⟩
      cases hr : p.2 with
      | found s => exact ⟨s, rfl⟩
      | failed m =>
        have := h5.mpr ⟨p, hp, m, hr⟩
        omega
    · rintro ⟨_, hs⟩
      rcases h4 with h4 | h4
      · obtain ⟨p, hp, m, hm⟩ := h5.mp h4
        obtain ⟨s, hs⟩ := hs p hp
        rw [hs] at hm; cases hm
      · exact ⟨_, by rw [h4]⟩
  · have ha' : ∃ i < dns.length, i ∉ replies.map (·.1) := by
      simpa only [not_forall, exists_prop] using ha
    rw [h2 ha']
    constructor
    · rintro ⟨_, e⟩; cases e
    · rintro ⟨h, _⟩; exact absurd h ha

/-- The usage message is printed exactly if no DN is given. -/
theorem usage_iff (U : Unicode) (upper : Str → Str) (dns : List Str) (replies : List (Nat × Reply)) :
    console U upper dns replies = .usage ↔ dns = [] := by
  unfold console
  split
  · simp [*]
  · rename_i h
    simp only [h, iff_false]
    unfold FindServer.main
    split
    · intro e; cases e
    · simp only
      split <;> (intro e; cases e)

/-! ### Where the full statement fails -/

/-- One DN that cannot be read ends the tool before any answer, whatever the others are. -/
theorem one_bad (U : Unicode) (upper : Str → Str) (dns : List Str) (s : Str) (hs : s ∈ dns) (e : PyErr) (he : Dn.parse U s = .error e)
    (replies : List (Nat × Reply)) : ∃ e', FindServer.main U upper dns replies = .raised e' := by
  have : ∃ e', (ask U upper dns).2 = .error e' := by
    induction dns with
    | nil => cases hs
    | cons t ts ih =>
      unfold ask
      cases ht : Dn.parse U t with
      | error x => exact ⟨x, rfl⟩
      | ok d =>
        rcases List.mem_cons.mp hs with rfl | h
        · rw [ht] at he; cases he
        · exact ih h
  obtain ⟨e', h⟩ := this
  unfold FindServer.main
  rw [h]
  exact ⟨e', rfl⟩

/-- A DN without a domain is asked for like one of the domain `None`. -/
theorem no_domain (upper : Str → Str) (hu : upper "dc".toList = ['D', 'C']) (d : Dn) (hd : ∀ r v, d.getLast? = some r → ¬ C60.IsDC upper r v) :
    question upper d = question upper [[⟨"dc".toList, "None".toList⟩]] := by
  have h1 := C60.domain_spec upper d [] [] .nil hd
  have h2 := C60.domain_spec upper [] [[⟨"dc".toList, "None".toList⟩]] ["None".toList] (.cons ⟨_, rfl, hu⟩ .nil) (by simp)
  rw [List.append_nil] at h1
  rw [List.nil_append] at h2
  unfold question
  rw [h1, h2]
  simp [List.intercalate]

/-- Servers of the authority and the additional records are printed as well. -/
theorem additional_printed (dn : Str) (x : Srv) : printAnswer dn [[], [], [.srv x]] = printAnswer dn [[.srv x], [], []] := by
  simp [printAnswer]

def up : Str → Str := fun s => s.map Char.toUpper

/-- The status is 0 also if no server was found. -/
theorem nothing_found : FindServer.main asciiTables up ["dc=x".toList] [(0, .found [[], [], []])] = .exit [] 0 := by decide +kernel

/-! ### Examples -/

/-- Two DNs, answered in the other order. -/
example : console asciiTables up ["cn=a,dc=x,dc=y".toList, "dc=z".toList]
      [(1, .failed "timeout".toList), (0, .found [[.srv ⟨0, 5, "ldap.x.y".toList, 389⟩, .other], [], [.other]])] =
    .exit "ERROR: timeout\ncn=a,dc=x,dc=y\tpri=0 weight=5 ldap.x.y:389\n".toList 1 := by decide +kernel

example : ask asciiTables up ["cn=a,dc=x,dc=y".toList, "dc=z".toList] = (["_ldap._tcp.x.y".toList, "_ldap._tcp.z".toList], .ok ()) ∧
    ask asciiTables up ["dc=z".toList, "a\\".toList, "dc=y".toList] = (["_ldap._tcp.z".toList], .error .indexError) := by decide +kernel

example : Fitting ["cn=a,dc=x,dc=y".toList, "dc=z".toList] [(1, .failed []), (0, .found [])] := by unfold Fitting; decide

example : List.Forall₂ (C60.IsDC up) [[⟨"dc".toList, "x".toList⟩]] ["x".toList] ∧ up "dc".toList = ['D', 'C'] ∧
    ∀ r v, List.getLast? [[⟨"cn".toList, "a".toList⟩]] = some r → ¬ C60.IsDC up r v := by
  refine ⟨.cons ⟨_, rfl, by decide⟩ .nil, by decide, ?_⟩
  rintro r v h ⟨t, h1, h2⟩
  cases h
  cases h1
  revert h2
  decide

end Verif.C110
