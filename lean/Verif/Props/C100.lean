import Verif.Model.Log
import Verif.Spec.Log
import Verif.Spec.Each
import Verif.Lemmas.Decimal
import Verif.Lemmas.Transport
import Verif.Props.C40
/-
C100  What is logged of messages: one printable line, without passwords - and logging does not change the service.

With `debug` on, `LDAPServer` and `LDAPClient` log the `repr` of every message.

`one_line`: whatever the octets of a message were, its line consists of visible ASCII characters and spaces; no peer can forge a line.
`password_hidden`, `sasl_hidden`, `extended_hidden`: of bind requests, nothing depends on the password but its length, and nothing on
SASL credentials; of extended requests - those that change passwords are such - nothing depends on what they carry.
`raises_iff`: a line is made unless there is a bind request, at any depth, whose version is not a number.
`debug_same_partial`: a stream of messages without such a bind request is served in the same way, however it is cut, and one line per
message handled is logged.

Partial: the property fails in two ways.  `debug_drops`: with `debug` off, a bind request whose version is a string is answered; with `debug`
on, the logging raises and the connection is dropped.  `value_shown`: passwords that are written with a modify request (as attribute values)
are logged in the clear.  `length_shown`: the length of a password can be read off the line.
-/
namespace Verif.C100
open Verif.Ldap Verif.Spec Verif.Log Verif.Conn

/-! ### Printable -/

theorem printable_append {s t : Str} (hs : Printable s) (ht : Printable t) : Printable (s ++ t) := fun c hc => by
  rcases List.mem_append.mp hc with h | h
  · exact hs c h
  · exact ht c h

theorem printable_cons {c : Char} {s : Str} (hc : ' ' ≤ c ∧ c ≤ '~') (hs : Printable s) : Printable (c :: s) := fun d hd => by
  rcases List.mem_cons.mp hd with rfl | h
  · exact hc
  · exact hs d h

theorem printable_nil : Printable [] := nofun

instance (s : Str) : Decidable (Printable s) := by unfold Printable; infer_instance

theorem printable_int (i : Int) : Printable (Decimal.ofInt i) := fun c hc => by
  rcases Decimal.ofInt_mem hc with h | rfl
  · rw [Char.isDigit, Bool.and_eq_true, decide_eq_true_eq, decide_eq_true_eq] at h
    exact ⟨UInt32.le_trans (by decide) h.1, UInt32.le_trans h.2 (by decide)⟩
  · decide

theorem printable_octet (q : Char) (hq : q = '"' ∨ q = '\'') (b : UInt8) : Printable (Checker.reprOctet q b) := by
  have : ∀ q ∈ ['"', '\''], ∀ n : Fin 256, Printable (Checker.reprOctet q (UInt8.ofNat n.val)) := by decide +kernel
  have h := this q (by rcases hq with rfl | rfl <;> simp) ⟨b.toNat, b.toNat_lt⟩
  simpa using h

theorem printable_octets (b : Bytes) : Printable (Checker.reprOctets b) := by
  unfold Checker.reprOctets
  have hq : ∀ p : Prop, [Decidable p] → (if p then '"' else '\'') = '"' ∨ (if p then '"' else '\'') = '\'' := fun p _ => by
    by_cases h : p
    · exact .inl (if_pos h)
    · exact .inr (if_neg h)
  generalize hqe : (if (0x27 : UInt8) ∈ b ∧ (0x22 : UInt8) ∉ b then '"' else '\'') = q
  have hq' := hq ((0x27 : UInt8) ∈ b ∧ (0x22 : UInt8) ∉ b)
  rw [hqe] at hq'
  have hqp : ' ' ≤ q ∧ q ≤ '~' := by rcases hq' with rfl | rfl <;> decide
  refine printable_append (printable_cons (by decide) (printable_cons hqp ?_)) (printable_cons hqp printable_nil)
  intro c hc
  obtain ⟨x, -, hx⟩ := List.mem_flatMap.mp hc
  exact printable_octet q hq' x c hx

theorem printable_val (v : PyVal) : Printable (reprVal v) := by
  cases v with
  | int i => exact printable_int i
  | bytes b => exact printable_octets b
  | none => decide

theorem printable_joined : {l : List Str} → (∀ s ∈ l, Printable s) → Printable (joined l)
  | [], _ => printable_nil
  | [x], h => h x (by simp)
  | x :: y :: l, h => printable_append (h x (by simp))
      (printable_append (by decide) (printable_joined (l := y :: l) fun s hs => h s (List.mem_cons_of_mem _ hs)))

theorem printable_list {l : List Str} (h : ∀ s ∈ l, Printable s) : Printable (reprList l) :=
  printable_append (printable_cons (by decide) (printable_joined h)) (by decide)

theorem printable_tuple {l : List Str} (h : ∀ s ∈ l, Printable s) : Printable (reprTuple l) :=
  printable_append (printable_cons (by decide) (printable_joined h)) (by decide)

theorem printable_field {name : String} {s : Str} (hn : Printable name.toList) (hs : Printable s) : Printable (field name s) :=
  printable_append hn (printable_cons (by decide) hs)

theorem printable_class (c : Cls) : Printable (className c) := by cases c <;> decide +kernel

theorem printable_tag (c : Cls) (tag : UInt8) :
    ∀ s ∈ (if tag ≠ classTag c then [field "tag" (Decimal.ofInt tag.toNat)] else []), Printable s := by
  intro s hs
  split at hs
  · rw [List.mem_singleton.mp hs]; exact printable_field (by decide) (printable_int _)
  · cases hs

theorem printable_shown {c : Cls} {tag : UInt8} {fields : List Str} (h : ∀ s ∈ fields, Printable s) : Printable (shown c tag fields) := by
  refine printable_append (printable_class c) (printable_tuple fun s hs => ?_)
  rcases List.mem_append.mp hs with hs | hs
  · exact h s hs
  · exact printable_tag c tag s hs

theorem printable_stars (n : Nat) : Printable (stars n) := by
  refine printable_append (printable_cons (by decide) ?_) (by decide)
  intro c hc
  rw [List.eq_of_mem_replicate hc]
  decide

theorem printable_if {name : String} (hn : Printable name.toList) (v : PyVal) : ∀ s ∈ fieldIf name v, Printable s := by
  intro s hs
  unfold fieldIf at hs
  split at hs
  · rw [List.mem_singleton.mp hs]; exact printable_field hn (printable_val v)
  · cases hs

theorem printable_string (c : Cls) (v : Bytes) : Printable (reprString c v) := by
  unfold reprString
  split
  · exact printable_stars _
  · exact printable_stars _
  · exact printable_octets v

theorem printable_valueField (c : Cls) : Printable (valueField c).toList := by cases c <;> decide

theorem printable_part (c : Cls) (v : Option Bytes) : Printable (reprPart c v) := by
  cases v with
  | none => show Printable "None".toList; decide
  | some v =>
    refine printable_shown fun s hs => ?_
    rw [List.mem_singleton.mp hs]
    exact printable_field (by decide) (printable_octets v)

theorem printable_controls (cs : Option (List (PyVal × PyVal × PyVal))) : Printable (reprControls cs) := by
  cases cs with
  | none => decide
  | some cs =>
    refine printable_list fun s hs => ?_
    obtain ⟨c, -, rfl⟩ := List.mem_map.mp hs
    refine printable_tuple fun s hs => ?_
    simp only [List.mem_cons, List.not_mem_nil, or_false] at hs
    rcases hs with rfl | rfl | rfl <;> exact printable_val _

theorem bind_ok {α β : Type} {x : Py α} {f : α → Py β} {b : β} (h : (x >>= f) = .ok b) : ∃ a, x = .ok a ∧ f a = .ok b := by
  cases x with
  | error e => cases h
  | ok a => exact ⟨a, rfl, h⟩

mutual
theorem printable_obj : (o : Obj) → {s : Str} → reprObj o = .ok s → Printable s
  | .int c tag v, s, h => by
    cases h
    refine printable_shown fun s hs => ?_
    simp only [List.mem_cons, List.not_mem_nil, or_false] at hs
    subst hs
    exact printable_field (printable_valueField c) (printable_int v)
  | .oct c tag v, s, h => by
    cases h
    refine printable_shown fun s hs => ?_
    simp only [List.mem_cons, List.not_mem_nil, or_false] at hs
    subst hs
    exact printable_field (printable_valueField c) (printable_string c v)
  | .null c tag, s, h => by cases h; exact printable_shown nofun
  | .bool c tag v, s, h => by
    cases h
    refine printable_shown fun s hs => ?_
    simp only [List.mem_cons, List.not_mem_nil, or_false] at hs
    subst hs
    exact printable_field (by decide) (printable_int v)
  | .seq c tag data, s, h => by
    rw [reprObj] at h
    obtain ⟨l, hl, h⟩ := bind_ok h
    cases h
    refine printable_shown fun s hs => ?_
    simp only [List.mem_cons, List.not_mem_nil, or_false] at hs
    subst hs
    exact printable_field (by decide) (printable_list (printable_objs data hl))
  | .not tag v, s, h => by
    rw [reprObj] at h
    obtain ⟨l, hl, h⟩ := bind_ok h
    cases h
    refine printable_shown fun s hs => ?_
    simp only [List.mem_cons, List.not_mem_nil, or_false] at hs
    subst hs
    exact printable_field (by decide) (printable_obj v hl)
  | .ava c tag d v, s, h => by
    rw [reprObj] at h
    obtain ⟨l, hl, h⟩ := bind_ok h
    obtain ⟨l', hl', h⟩ := bind_ok h
    cases h
    refine printable_shown fun s hs => ?_
    simp only [List.mem_cons, List.not_mem_nil, or_false] at hs
    rcases hs with rfl | rfl
    · exact printable_field (by decide) (printable_obj d hl)
    · exact printable_field (by decide) (printable_obj v hl')
  | .substrings tag ty subs, s, h => by
    rw [reprObj] at h
    obtain ⟨l, hl, h⟩ := bind_ok h
    cases h
    refine printable_shown fun s hs => ?_
    simp only [List.mem_cons, List.not_mem_nil, or_false] at hs
    rcases hs with rfl | rfl
    · exact printable_field (by decide) (printable_val ty)
    · exact printable_field (by decide) (printable_list (printable_objs subs hl))
  | .mra tag rule ty mv dn, s, h => by
    unfold reprObj at h
    cases h
    refine printable_shown fun s hs => ?_
    simp only [List.mem_cons, List.not_mem_nil, or_false] at hs
    rcases hs with rfl | rfl | rfl | rfl
    · exact printable_field (by decide) (printable_part _ _)
    · exact printable_field (by decide) (printable_part _ _)
    · exact printable_field (by decide) (printable_part _ _)
    · refine printable_field (by decide) ?_
      cases dn with
      | none => decide
      | some v =>
        refine printable_shown fun s hs => ?_
        rw [List.mem_singleton.mp hs]
        exact printable_field (by decide) (printable_int v)
  | .message id value controls, s, h => by
    rw [reprObj] at h
    obtain ⟨l, hl, h⟩ := bind_ok h
    cases h
    refine printable_shown fun s hs => ?_
    simp only [List.mem_cons, List.not_mem_nil, or_false] at hs
    rcases hs with rfl | rfl | rfl
    · exact printable_field (by decide) (printable_val id)
    · exact printable_field (by decide) (printable_obj value hl)
    · exact printable_field (by decide) (printable_controls controls)
  | .control tag _ _ _, s, h => by
    rw [reprObj] at h
    cases h
    refine printable_shown fun s hs => ?_
    simp only [List.mem_cons, List.not_mem_nil, or_false] at hs
    subst hs
    exact printable_field (by decide) (printable_list nofun)
  | .bind tag version dn auth, s, h => by
    rw [reprObj] at h
    obtain ⟨n, -, h⟩ := bind_ok h
    obtain ⟨v, hv, h⟩ := bind_ok h
    cases h
    refine printable_append (printable_class _) (printable_tuple fun s hs => ?_)
    rcases List.mem_append.mp hs with hs | hs
    · rcases List.mem_append.mp hs with hs | hs
      · simp only [List.mem_cons, List.not_mem_nil, or_false] at hs
        rcases hs with rfl | rfl | rfl
        · refine printable_field (by decide) ?_
          cases version <;> cases hv
          exact printable_int _
        · exact printable_field (by decide) (printable_val dn)
        · exact printable_field (by decide) (printable_stars n)
      · exact printable_tag .bindRequest tag s hs
    · rw [List.mem_singleton.mp hs]
      refine printable_field (by decide) ?_
      cases auth
      · show Printable "False".toList; decide
      · show Printable "True".toList; decide
  | .result c tag code mdn msg _, s, h => by
    rw [reprObj] at h
    cases h
    refine printable_shown fun s hs => ?_
    rcases List.mem_cons.mp hs with rfl | hs
    · exact printable_field (by decide) (printable_val code)
    · rcases List.mem_append.mp hs with hs | hs
      · exact printable_if (by decide) mdn s hs
      · exact printable_if (by decide) msg s hs
  | .extResponse tag code mdn msg _ _, s, h => by
    rw [reprObj] at h
    cases h
    refine printable_shown fun s hs => ?_
    rcases List.mem_cons.mp hs with rfl | hs
    · exact printable_field (by decide) (printable_val code)
    · rcases List.mem_append.mp hs with hs | hs
      · exact printable_if (by decide) mdn s hs
      · exact printable_if (by decide) msg s hs
  | .searchRequest tag base scope deref sl tl to_ filter attrs, s, h => by
    rw [reprObj] at h
    obtain ⟨l, hl, h⟩ := bind_ok h
    cases h
    refine printable_shown fun s hs => ?_
    simp only [List.mem_cons, List.not_mem_nil, or_false] at hs
    rcases hs with rfl | rfl | rfl | rfl | rfl | rfl | rfl | rfl
    · exact printable_field (by decide) (printable_val _)
    · exact printable_field (by decide) (printable_val _)
    · exact printable_field (by decide) (printable_val _)
    · exact printable_field (by decide) (printable_val _)
    · exact printable_field (by decide) (printable_val _)
    · exact printable_field (by decide) (printable_val _)
    · exact printable_field (by decide) (printable_obj filter hl)
    · refine printable_field (by decide) (printable_list fun s hs => ?_)
      obtain ⟨v, -, rfl⟩ := List.mem_map.mp hs
      exact printable_val v
  | .searchEntry tag name attrs, s, h => by
    rw [reprObj] at h
    cases h
    refine printable_shown fun s hs => ?_
    simp only [List.mem_cons, List.not_mem_nil, or_false] at hs
    rcases hs with rfl | rfl
    · exact printable_field (by decide) (printable_val _)
    · refine printable_field (by decide) (printable_list fun s hs => ?_)
      obtain ⟨a, -, rfl⟩ := List.mem_map.mp hs
      refine printable_tuple fun s hs => ?_
      simp only [List.mem_cons, List.not_mem_nil, or_false] at hs
      rcases hs with rfl | rfl
      · exact printable_val _
      · refine printable_list fun s hs => ?_
        obtain ⟨v, -, rfl⟩ := List.mem_map.mp hs
        exact printable_val v
  | .searchReference tag uris, s, h => by
    rw [reprObj] at h
    obtain ⟨l, hl, h⟩ := bind_ok h
    cases h
    refine printable_shown fun s hs => ?_
    simp only [List.mem_cons, List.not_mem_nil, or_false] at hs
    subst hs
    exact printable_field (by decide) (printable_list (printable_objs uris hl))
  | .modifyRequest tag object mods, s, h => by
    rw [reprObj] at h
    obtain ⟨l, hl, h⟩ := bind_ok h
    cases h
    refine printable_shown fun s hs => ?_
    simp only [List.mem_cons, List.not_mem_nil, or_false] at hs
    rcases hs with rfl | rfl
    · exact printable_field (by decide) (printable_val _)
    · exact printable_field (by decide) (printable_list (printable_objs mods hl))
  | .addRequest tag entry attrs, s, h => by
    rw [reprObj] at h
    obtain ⟨l, hl, h⟩ := bind_ok h
    cases h
    refine printable_shown fun s hs => ?_
    simp only [List.mem_cons, List.not_mem_nil, or_false] at hs
    rcases hs with rfl | rfl
    · exact printable_field (by decide) (printable_val _)
    · exact printable_field (by decide) (printable_obj attrs hl)
  | .modifyDN tag entry newrdn del sup, s, h => by
    rw [reprObj] at h
    cases h
    refine printable_shown fun s hs => ?_
    rcases List.mem_append.mp hs with hs | hs
    · simp only [List.mem_cons, List.not_mem_nil, or_false] at hs
      rcases hs with rfl | rfl | rfl
      · exact printable_field (by decide) (printable_val _)
      · exact printable_field (by decide) (printable_val _)
      · exact printable_field (by decide) (printable_val _)
    · split at hs
      · rw [List.mem_singleton.mp hs]; exact printable_field (by decide) (printable_val _)
      · cases hs
  | .compare tag entry ava, s, h => by
    rw [reprObj] at h
    obtain ⟨l, hl, h⟩ := bind_ok h
    cases h
    refine printable_append (printable_class _) (printable_tuple fun s hs => ?_)
    simp only [List.mem_cons, List.not_mem_nil, or_false] at hs
    rcases hs with rfl | rfl
    · exact printable_field (by decide) (printable_val _)
    · exact printable_field (by decide) (printable_obj ava hl)
  | .extRequest tag _ _, s, h => by
    rw [reprObj] at h
    cases h
    refine printable_shown fun s hs => ?_
    simp only [List.mem_cons, List.not_mem_nil, or_false] at hs
    subst hs
    exact printable_field (by decide) (printable_list nofun)

theorem printable_objs : (l : List Obj) → {r : List Str} → reprObjs l = .ok r → ∀ s ∈ r, Printable s
  | [], r, h => by cases h; exact nofun
  | o :: l, r, h => by
    rw [reprObjs] at h
    obtain ⟨a, ha, h⟩ := bind_ok h
    obtain ⟨b, hb, h⟩ := bind_ok h
    cases h
    intro s hs
    rcases List.mem_cons.mp hs with rfl | hs
    · exact printable_obj o ha
    · exact printable_objs l hb s hs
end

/-- Whatever the octets were. -/
theorem one_line {o : Obj} {s : Str} (h : receivedLine o = .ok s) : Printable s := by
  obtain ⟨r, hr, h⟩ := bind_ok h
  cases h
  exact printable_append (by decide) (printable_obj o hr)

/-! ### Which messages can be logged -/

/-- An iteration of the rule that a `do` block fails when one of its parts does. -/
theorem map_ok {α β : Type} {x : Py α} {f : α → β} {e : PyErr} : ((x >>= fun a => pure (f a) : Py β) = .error e) ↔ x = .error e := by
  cases x with
  | error e' => exact ⟨fun h => by cases h; rfl, fun h => by cases h; rfl⟩
  | ok a => exact ⟨(fun h => by cases h), (fun h => by cases h)⟩

mutual
theorem fails_obj : (o : Obj) → {e : PyErr} → reprObj o = .error e → e = .typeError ∧ ∃ p, Part p o ∧ ¬ Regular p
  | .seq c tag data, e, h => by
    rw [reprObj, map_ok] at h
    obtain ⟨he, o, ho, p, hp, hr⟩ := fails_objs data h
    exact ⟨he, p, .seq ho hp, hr⟩
  | .not tag v, e, h => by
    rw [reprObj, map_ok] at h
    obtain ⟨he, p, hp, hr⟩ := fails_obj v h
    exact ⟨he, p, .not hp, hr⟩
  | .ava c tag d v, e, h => by
    rw [reprObj] at h
    cases hd : reprObj d with
    | error e' =>
      rw [hd] at h
      cases h
      obtain ⟨he, p, hp, hr⟩ := fails_obj d hd
      exact ⟨he, p, .desc hp, hr⟩
    | ok a =>
      rw [hd] at h
      have h' := map_ok.mp h
      obtain ⟨he, p, hp, hr⟩ := fails_obj v h'
      exact ⟨he, p, .val hp, hr⟩
  | .substrings tag ty subs, e, h => by
    rw [reprObj, map_ok] at h
    obtain ⟨he, o, ho, p, hp, hr⟩ := fails_objs subs h
    exact ⟨he, p, .substrings ho hp, hr⟩
  | .message id value controls, e, h => by
    rw [reprObj, map_ok] at h
    obtain ⟨he, p, hp, hr⟩ := fails_obj value h
    exact ⟨he, p, .message hp, hr⟩
  | .bind tag version dn auth, e, h => by
    rw [reprObj] at h
    refine ⟨?_, _, .refl, ?_⟩
    · rcases auth with (_ | _ | _) | _ <;> rcases version with _ | _ | _ <;> cases h <;> rfl
    · rcases auth with (_ | _ | _) | _ <;> rcases version with _ | _ | _ <;> first | exact id | cases h
  | .searchRequest tag base scope deref sl tl to_ filter attrs, e, h => by
    rw [reprObj, map_ok] at h
    obtain ⟨he, p, hp, hr⟩ := fails_obj filter h
    exact ⟨he, p, .filter hp, hr⟩
  | .searchReference tag uris, e, h => by
    rw [reprObj, map_ok] at h
    obtain ⟨he, o, ho, p, hp, hr⟩ := fails_objs uris h
    exact ⟨he, p, .uri ho hp, hr⟩
  | .modifyRequest tag object mods, e, h => by
    rw [reprObj, map_ok] at h
    obtain ⟨he, o, ho, p, hp, hr⟩ := fails_objs mods h
    exact ⟨he, p, .modification ho hp, hr⟩
  | .addRequest tag entry attrs, e, h => by
    rw [reprObj, map_ok] at h
    obtain ⟨he, p, hp, hr⟩ := fails_obj attrs h
    exact ⟨he, p, .attributes hp, hr⟩
  | .compare tag entry ava, e, h => by
    rw [reprObj, map_ok] at h
    obtain ⟨he, p, hp, hr⟩ := fails_obj ava h
    exact ⟨he, p, .assertion hp, hr⟩
  | .mra .., e, h => by unfold reprObj at h; cases h
  | .int .., e, h | .oct .., e, h | .null .., e, h | .bool .., e, h | .control .., e, h | .result .., e, h
  | .extResponse .., e, h | .searchEntry .., e, h | .modifyDN .., e, h | .extRequest .., e, h => by rw [reprObj] at h; cases h

theorem fails_objs : (l : List Obj) → {e : PyErr} → reprObjs l = .error e → e = .typeError ∧ ∃ o ∈ l, ∃ p, Part p o ∧ ¬ Regular p
  | [], e, h => by cases h
  | o :: l, e, h => by
    rw [reprObjs] at h
    cases ho : reprObj o with
    | error e' =>
      rw [ho] at h
      cases h
      obtain ⟨he, hp⟩ := fails_obj o ho
      exact ⟨he, o, List.mem_cons_self, hp⟩
    | ok a =>
      rw [ho] at h
      have h' := map_ok.mp h
      obtain ⟨he, o', ho', hp⟩ := fails_objs l h'
      exact ⟨he, o', List.mem_cons_of_mem _ ho', hp⟩
end

theorem objs_ok : {l : List Obj} → {r : List Str} → reprObjs l = .ok r → ∀ o ∈ l, ∃ s, reprObj o = .ok s
  | [], _, _ => nofun
  | o :: l, r, h => by
    rw [reprObjs] at h
    obtain ⟨a, ha, h⟩ := bind_ok h
    obtain ⟨b, hb, h⟩ := bind_ok h
    intro o' ho'
    rcases List.mem_cons.mp ho' with rfl | ho'
    · exact ⟨a, ha⟩
    · exact objs_ok hb o' ho'

theorem part_ok {p o : Obj} (hp : Part p o) : ∀ {s : Str}, reprObj o = .ok s → ∃ r, reprObj p = .ok r := by
  induction hp with
  | refl => exact fun h => ⟨_, h⟩
  | seq ho _ ih | substrings ho _ ih | uri ho _ ih | modification ho _ ih =>
    intro s h
    rw [reprObj] at h
    obtain ⟨l, hl, -⟩ := bind_ok h
    obtain ⟨r, hr⟩ := objs_ok hl _ ho
    exact ih hr
  | not _ ih | message _ ih | filter _ ih | attributes _ ih | assertion _ ih | desc _ ih =>
    intro s h
    rw [reprObj] at h
    obtain ⟨l, hl, -⟩ := bind_ok h
    exact ih hl
  | val _ ih =>
    intro s h
    rw [reprObj] at h
    obtain ⟨_, _, h⟩ := bind_ok h
    obtain ⟨l, hl, -⟩ := bind_ok h
    exact ih hl

theorem regular_of_ok {o : Obj} {s : Str} (h : reprObj o = .ok s) : Regular o := by
  cases o with
  | bind tag version dn auth =>
    rw [reprObj] at h
    rcases auth with (_ | _ | _) | _ <;> rcases version with _ | _ | _ <;> first | exact trivial | cases h
  | _ => trivial

/-- The logging raises, with a TypeError, exactly if some part of the message is a bind request that is not regular. -/
theorem raises_iff (o : Obj) : (∃ e, receivedLine o = .error e) ↔ ∃ p, Part p o ∧ ¬ Regular p := by
  unfold receivedLine
  constructor
  · rintro ⟨e, h⟩
    exact (fails_obj o (map_ok.mp h)).2
  · rintro ⟨p, hp, hr⟩
    cases ho : reprObj o with
    | error e => exact ⟨e, rfl⟩
    | ok s =>
      obtain ⟨r, h⟩ := part_ok hp ho
      exact absurd (regular_of_ok h) hr

theorem raises_type_error {o : Obj} {e : PyErr} (h : receivedLine o = .error e) : e = .typeError := (fails_obj o (map_ok.mp h)).1

/-! ### What is hidden -/

/-- Of a password, nothing but its length. -/
theorem password_hidden (id version dn : PyVal) (tag : UInt8) (controls : Option (List (PyVal × PyVal × PyVal))) {p q : Bytes}
    (h : p.length = q.length) :
    receivedLine (.message id (.bind tag version dn (.simple (.bytes p))) controls) =
      receivedLine (.message id (.bind tag version dn (.simple (.bytes q))) controls) := by
  simp only [receivedLine, reprObj, authLength, h, reprSasl]

/-- Of SASL credentials, nothing. -/
theorem sasl_hidden (id version dn : PyVal) (tag : UInt8) (controls : Option (List (PyVal × PyVal × PyVal))) (m m' c c' : PyVal) :
    receivedLine (.message id (.bind tag version dn (.sasl m c)) controls) =
      receivedLine (.message id (.bind tag version dn (.sasl m' c')) controls) := by
  simp only [receivedLine, reprObj, authLength, reprSasl]

/-- Of extended requests, password modify requests among them, nothing of what they carry. -/
theorem extended_hidden (id : PyVal) (tag : UInt8) (controls : Option (List (PyVal × PyVal × PyVal))) (n n' v v' : PyVal) :
    receivedLine (.message id (.extRequest tag n v) controls) = receivedLine (.message id (.extRequest tag n' v') controls) := by
  simp only [receivedLine, reprObj]

/-! ### With `debug` on -/

/-- The lines of the messages, for messages that have lines. -/
def lines (os : List Obj) : List Str := os.map fun o => ((receivedLine o).toOption).getD []

theorem handAll_debug (env : Server.Env) (lucks : Nat → Server.Luck) : ∀ (os : List Obj) (x : ProxySession.Serving) (log : List Str),
    (∀ o ∈ os, ∀ p, Part p o → Regular p) →
    let d := handAll (debugHandle env lucks) (x, log) os
    let q := handAll (ProxySession.serverHandle env lucks) x os
    d.1.1 = q.1 ∧ d.2 = q.2 ∧ ∃ k, d.1.2 = log ++ lines (os.take k) ∧ (d.2 = false → k = os.length)
  | [], x, log, _ => ⟨rfl, rfl, 0, by simp [handAll, lines], fun _ => rfl⟩
  | o :: os, x, log, h => by
    simp only [handAll]
    cases ha : asserted o with
    | false =>
      have h1 : debugHandle env lucks (x, log) o = ((x, log), true) := by simp [debugHandle, ha]
      have h2 : ProxySession.serverHandle env lucks x o = (x, true) := by
        unfold ProxySession.serverHandle Server.serve
        cases o with
        | message id op c => rw [asserted] at ha; simp [ha]
        | _ => rfl
      simp only [h1, h2, if_true]
      exact ⟨trivial, trivial, 0, by simp [lines], nofun⟩
    | true =>
      cases hl : receivedLine o with
      | error e =>
        obtain ⟨p, hp, hr⟩ := (raises_iff o).mp ⟨e, hl⟩
        exact absurd (h o List.mem_cons_self p hp) hr
      | ok line =>
        have h1 : debugHandle env lucks (x, log) o =
            (((ProxySession.serverHandle env lucks x o).1, log ++ [line]), (ProxySession.serverHandle env lucks x o).2) := by
          simp [debugHandle, ha, hl]
        rw [h1]
        simp only
        cases hd : (ProxySession.serverHandle env lucks x o).2 with
        | true => exact ⟨rfl, rfl, 1, by simp [lines, hl, Except.toOption], nofun⟩
        | false =>
          obtain ⟨e1, e2, k, e3, e4⟩ := handAll_debug env lucks os (ProxySession.serverHandle env lucks x o).1 (log ++ [line])
            fun o' ho' => h o' (List.mem_cons_of_mem _ ho')
          refine ⟨e1, e2, k + 1, ?_, fun h' => by rw [List.length_cons, e4 h']⟩
          rw [if_neg (by simp), e3]
          simp [lines, hl, Except.toOption]

theorem carries_each {ws : List Bytes} {os : List Obj} (h : Each (fun w o => berDecodeObject topCtx w = .ok (some o, w.length)) ws os) :
    Carries ws.flatten os := by
  induction h with
  | nil => exact .nil
  | @cons w o ws os hw _ ih =>
    refine .cons ⟨?_, hw⟩ ih
    have hne : w ≠ [] := by
      rintro rfl
      rw [berDecodeObject_nil] at hw
      cases hw
    cases hh : header w with
    | none => rw [berDecodeObject_no_header _ hne hh] at hw; cases hw
    | some x =>
      obtain ⟨n, c⟩ := x
      by_cases hs : w.length < n + c
      · rw [berDecodeObject_short _ hh hs] at hw; cases hw
      · rw [berDecodeObject_complete _ hh (by omega)] at hw
        refine ⟨n, c, hh, ?_, by omega⟩
        split at hw
        · cases hr : fromBER berDecodeObject (fun c b => berDecodeMultiple b c) _ (tagOf w) ((w.drop n).take c) topCtx.inherit with
          | error e => rw [hr] at hw; cases hw
          | ok r =>
            rw [hr] at hw
            exact (congrArg Prod.snd (Except.ok.inj hw)).symm
        · cases hw

/-- Logging does not change the service: the same answers, the same tree, the connection dropped or not; and the lines logged are those
of the messages handled, in order. -/
theorem debug_same_partial (env : Server.Env) (lucks : Nat → Server.Luck) (st : Server.State) {ws : List Bytes} {os : List Obj}
    (hc : Each (fun w o => berDecodeObject topCtx w = .ok (some o, w.length)) ws os) (hr : ∀ o ∈ os, ∀ p, Part p o → Regular p)
    {segs : List Bytes} (hs : segs.flatten = ws.flatten) :
    let d := feed (debugHandle env lucks) (fresh (⟨st, [], 0⟩, [])) segs
    let q := feed (ProxySession.serverHandle env lucks) (fresh ⟨st, [], 0⟩) segs
    d.st.1 = q.st ∧ d.dead = q.dead ∧ ∃ k, d.st.2 = lines (os.take k) ∧ (d.dead = false → k = os.length) := by
  intro d q
  replace hc := carries_each hc
  have h1 := feed_carries (debugHandle env lucks) hc (⟨st, [], 0⟩, []) hs
  have h2 := feed_carries (ProxySession.serverHandle env lucks) hc ⟨st, [], 0⟩ hs
  obtain ⟨e1, e2, k, e3, e4⟩ := handAll_debug env lucks os ⟨st, [], 0⟩ [] hr
  refine ⟨?_, ?_, k, ?_, ?_⟩
  · rw [h1.1, h2.1, e1]
  · rw [h1.2, h2.2, e2]
  · rw [h1.1, e3, List.nil_append]
  · rw [h1.2]; exact e4

/-! ### What is not hidden, and where logging matters -/

/-- Bind with version `"3"`, a string. -/
def odd : Bytes := [0x30, 0x0C, 0x02, 0x01, 0x01, 0x60, 0x07, 0x04, 0x01, 0x33, 0x04, 0x00, 0x80, 0x00]

/-- With `debug` off the bind request is answered, with `debug` on the connection is dropped. -/
theorem debug_drops :
    let q := feed (ProxySession.serverHandle C40.env fun _ => C40.luck) (fresh ⟨⟨C40.heap, none⟩, [], 0⟩) [odd]
    let d := feed (debugHandle C40.env fun _ => C40.luck) (fresh (⟨⟨C40.heap, none⟩, [], 0⟩, [])) [odd]
    (q.dead = false ∧ q.st.sent.length = 1) ∧ d.dead = true ∧ d.st.1.sent.length = 0 := by decide +kernel

/-- The length of a password can be read off the line. -/
theorem length_shown (id : PyVal) (version : Int) (dn : PyVal) (tag : UInt8) (controls : Option (List (PyVal × PyVal × PyVal)))
    {p q : Bytes} (h : p.length ≠ q.length) :
    receivedLine (.message id (.bind tag (.int version) dn (.simple (.bytes p))) controls) ≠
      receivedLine (.message id (.bind tag (.int version) dn (.simple (.bytes q))) controls) := by
  intro e
  simp only [receivedLine, reprObj, authLength, formatInt, bind, Except.bind, pure, Except.pure, Except.ok.injEq, List.append_cancel_left_eq,
    shown] at e
  replace e := congrArg List.length e
  split at e <;> simp [Log.reprTuple, joined, field, stars, reprSasl] at e <;> omega

theorem infix_joined : {l : List Str} → {x : Str} → x ∈ l → x <:+: joined l
  | [y], x, h => by rw [List.mem_singleton.mp h]; exact List.infix_rfl
  | y :: z :: l, x, h => by
    rcases List.mem_cons.mp h with rfl | h
    · exact ⟨[], _, rfl⟩
    · exact (infix_joined h).trans ⟨y ++ ", ".toList, [], by simp [joined]⟩

theorem infix_shown {c : Cls} {tag : UInt8} {fields : List Str} {name : String} {x : Str} (h : field name x ∈ fields) :
    x <:+: shown c tag fields := by
  refine List.IsInfix.trans ?_ ((infix_joined (List.mem_append_left _ h)).trans ⟨className c ++ ['('], [')'], by simp [shown, Log.reprTuple]; rfl⟩)
  exact ⟨name.toList ++ ['='], [], by simp [field]⟩

theorem infix_list {l : List Str} {x : Str} (h : x ∈ l) : x <:+: reprList l :=
  (infix_joined h).trans ⟨['['], [']'], by simp [reprList]⟩

theorem objs_mem : {l : List Obj} → {r : List Str} → reprObjs l = .ok r → ∀ o ∈ l, ∃ s ∈ r, reprObj o = .ok s
  | [], _, _ => nofun
  | o :: l, r, h => by
    rw [reprObjs] at h
    obtain ⟨a, ha, h⟩ := bind_ok h
    obtain ⟨b, hb, h⟩ := bind_ok h
    cases h
    intro o' ho'
    rcases List.mem_cons.mp ho' with rfl | ho'
    · exact ⟨a, List.mem_cons_self, ha⟩
    · obtain ⟨s, hs, h⟩ := objs_mem hb o' ho'
      exact ⟨s, List.mem_cons_of_mem _ hs, h⟩

theorem part_shown {p o : Obj} (hp : Part p o) : ∀ {s : Str}, reprObj o = .ok s → ∃ r, reprObj p = .ok r ∧ r <:+: s := by
  induction hp with
  | refl => exact fun h => ⟨_, h, List.infix_rfl⟩
  | seq ho _ ih | substrings ho _ ih | uri ho _ ih | modification ho _ ih =>
    intro s h
    rw [reprObj] at h
    obtain ⟨l, hl, h⟩ := bind_ok h
    cases h
    obtain ⟨r, hm, hr⟩ := objs_mem hl _ ho
    obtain ⟨r', h1, h2⟩ := ih hr
    refine ⟨r', h1, (h2.trans (infix_list hm)).trans ?_⟩
    first
    | (refine infix_shown (name := "value") ?_; simp; done)
    | (refine infix_shown (name := "substrings") ?_; simp; done)
    | (refine infix_shown (name := "uris") ?_; simp; done)
    | (refine infix_shown (name := "modification") ?_; simp; done)
  | not _ ih | message _ ih | filter _ ih | attributes _ ih =>
    intro s h
    rw [reprObj] at h
    obtain ⟨l, hl, h⟩ := bind_ok h
    cases h
    obtain ⟨r', h1, h2⟩ := ih hl
    refine ⟨r', h1, h2.trans ?_⟩
    first
    | (refine infix_shown (name := "value") ?_; simp; done)
    | (refine infix_shown (name := "filter") ?_; simp; done)
    | (refine infix_shown (name := "attributes") ?_; simp; done)
  | assertion _ ih =>
    intro s h
    rw [reprObj] at h
    obtain ⟨l, hl, h⟩ := bind_ok h
    cases h
    obtain ⟨r', h1, h2⟩ := ih hl
    refine ⟨r', h1, h2.trans ((List.IsInfix.trans ?_ (infix_joined (List.mem_cons_of_mem _ List.mem_cons_self))).trans
      ⟨className .compareRequest ++ ['('], [')'], by simp [Log.reprTuple]; rfl⟩)⟩
    exact ⟨"ava=".toList, [], by simp [field]⟩
  | desc _ ih =>
    intro s h
    rw [reprObj] at h
    obtain ⟨l, hl, h⟩ := bind_ok h
    obtain ⟨_, _, h⟩ := bind_ok h
    cases h
    obtain ⟨r', h1, h2⟩ := ih hl
    exact ⟨r', h1, h2.trans (infix_shown (name := "attributeDesc") (by simp))⟩
  | val _ ih =>
    intro s h
    rw [reprObj] at h
    obtain ⟨_, _, h⟩ := bind_ok h
    obtain ⟨l, hl, h⟩ := bind_ok h
    cases h
    obtain ⟨r', h1, h2⟩ := ih hl
    exact ⟨r', h1, h2.trans (infix_shown (name := "assertionValue") (by simp))⟩

/-- Every string within a message is shown - attribute values among them, of whatever attribute - unless it is an object of one of the
two classes of passwords. -/
theorem value_shown {o : Obj} {c : Cls} {tag : UInt8} {v : Bytes} {s : Str} (hp : Part (.oct c tag v) o) (hc : c ≠ .pmOld ∧ c ≠ .pmNew)
    (h : receivedLine o = .ok s) : Checker.reprOctets v <:+: s := by
  obtain ⟨r, hr, h⟩ := bind_ok h
  cases h
  obtain ⟨r', h1, h2⟩ := part_shown hp hr
  cases h1
  have : reprString c v = Checker.reprOctets v := by
    unfold reprString
    split
    · exact absurd rfl hc.1
    · exact absurd rfl hc.2
    · rfl
  rw [this] at h2
  exact ((infix_shown List.mem_cons_self).trans h2).trans ⟨"S<-C ".toList, [], by simp⟩

/-! ### Examples -/

/-- A modify request that replaces the password of `cn=a`, as it is received. -/
def change : Obj := .message (.int 7) (.modifyRequest 0x46 (.bytes [0x63, 0x6E, 0x3D, 0x61]) [.seq .sequence 0x10 [.int .enumerated 0x0A 2,
  .seq .sequence 0x10 [.oct .octetString 0x04 [0x75, 0x73, 0x65, 0x72, 0x50, 0x61, 0x73, 0x73, 0x77, 0x6F, 0x72, 0x64],
    .seq .set 0x11 [.oct .octetString 0x04 [0x70, 0x77, 0x0A]]]]]) none

example : receivedLine change = .ok ("S<-C LDAPMessage(id=7, value=LDAPModifyRequest(object=b'cn=a', modification=[BERSequence(value=[BEREnumerated(value=2), " ++
    "BERSequence(value=[BEROctetString(value=b'userPassword'), BERSet(value=[BEROctetString(value=b'pw\\n')])])])]), controls=None)").toList := by
  decide +kernel

example : Part (.oct .octetString 0x04 [0x70, 0x77, 0x0A]) change :=
  .message (.modification List.mem_cons_self (.seq (List.mem_cons_of_mem _ List.mem_cons_self)
    (.seq (List.mem_cons_of_mem _ List.mem_cons_self) (.seq List.mem_cons_self .refl))))

example : receivedLine (.message (.int 1) (.bind 0x40 (.int 3) (.bytes [0x63, 0x6E, 0x3D, 0x61]) (.simple (.bytes [0x70, 0x77]))) none) =
    .ok "S<-C LDAPMessage(id=1, value=LDAPBindRequest(version=3, dn=b'cn=a', auth='**', sasl=False), controls=None)".toList := by decide +kernel

def wire : Bytes := [0x30, 0x0C, 0x02, 0x01, 0x01, 0x60, 0x07, 0x02, 0x01, 0x03, 0x04, 0x00, 0x80, 0x00]

/-- The hypotheses of `debug_same_partial`. -/
example : ∃ os, Each (fun w o => berDecodeObject topCtx w = .ok (some o, w.length)) [wire] os ∧ ∀ o ∈ os, ∀ p, Part p o → Regular p := by
  have h : (match berDecodeObject topCtx wire with
    | .ok (some o, n) => decide (n = wire.length) && (receivedLine o).toOption.isSome
    | _ => false) = true := by decide +kernel
  split at h
  · rename_i o n e
    rw [Bool.and_eq_true, decide_eq_true_eq] at h
    refine ⟨[o], .cons (by rw [e, h.1]) .nil, fun o' ho p hp => ?_⟩
    rw [List.mem_singleton.mp ho] at hp
    cases hl : reprObj o with
    | error e => rw [show receivedLine o = .error e by rw [receivedLine, hl]; rfl] at h; cases h.2
    | ok s =>
      obtain ⟨r, hr⟩ := part_ok hp hl
      exact regular_of_ok hr
  · cases h

end Verif.C100
