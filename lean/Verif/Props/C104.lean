import Verif.Spec.Zones
import Verif.Props.C61
import Verif.Props.C103
import Mathlib.Data.Int.Bitwise
/-
C104  What the zone file exporters write.
-/
namespace Verif.C104
open Verif.Zones Verif.Spec.Zones
open Verif.PdnsPipe (split1 splitAll)

/-! ### Bits -/

/-- The model of `|` and `~` is that of integers in two's complement. -/
theorem bits_right (a : Nat) (b : Int) (m : Nat) : bitOr a b = Int.lor a b ∧ invert m = Int.not m := by
  refine ⟨?_, rfl⟩
  cases b with
  | ofNat b => rfl
  | negSucc m =>
    show Int.negSucc (m ^^^ (m &&& a)) = Int.negSucc (Nat.ldiff m a)
    congr 1
    apply Nat.eq_of_testBit_eq
    intro i
    simp only [Nat.testBit_xor, Nat.testBit_and, Nat.testBit_ldiff]
    cases m.testBit i <;> cases a.testBit i <;> rfl

/-- A broadcast address cannot be computed. -/
theorem no_broadcast (ip mask : Nat) : ntoa (bitOr ip (invert mask)) = .error .other := rfl

/-! ### Nets -/

theorem no_forward (R : Reader) (n : Net) : ∃ e, getForward R n = .error e := by
  unfold getForward
  cases aton R n.address with
  | error e => exact ⟨e, rfl⟩
  | ok ip =>
    cases aton R n.mask with
    | error e => exact ⟨e, rfl⟩
    | ok mask =>
      simp only [bind, Except.bind, no_broadcast]
      cases ntoa (.ofNat mask) with
      | error e => exact ⟨e, rfl⟩
      | ok t => exact ⟨.other, rfl⟩

theorem no_reverse (R : Reader) (n : Net) (domain : Str) : ∃ e, getReverse R n domain = .error e := by
  unfold getReverse
  cases aton R n.address with
  | error e => exact ⟨e, rfl⟩
  | ok ip =>
    cases aton R n.mask with
    | error e => exact ⟨e, rfl⟩
    | ok mask => exact ⟨.other, by simp [bind, Except.bind, no_broadcast]⟩

theorem gotNets_cons (c : Config) (e : Found) (es : List Found) (fs : Files) (rev : List Reverse) :
    ∃ x, gotNets c (e :: es) fs rev = (fs, rev, .error x) := by
  unfold gotNets
  cases readNet e with
  | error x => exact ⟨x, rfl⟩
  | ok n =>
    obtain ⟨x, hx⟩ := no_forward c.reader n
    exact ⟨x, by simp [hx]⟩

/-! ### Hosts, when there are no nets -/

theorem gotAddresses_nil (c : Config) (rev : List Reverse) (dn name : Str) (ips : List Str) (fs : Files) :
    gotAddresses c [] rev dn name ips fs = (fs, .ok ()) := by
  induction ips with
  | nil => rfl
  | cons ip ips ih => simp [gotAddresses, parentOf, ih]

theorem only_ok {e : Found} {name : Str} : (∃ s, only e name = .ok s) ↔ ∃ v, e.attributes.lookup name = some [v] := by
  unfold only values
  cases h : e.attributes.lookup name with
  | none => simp
  | some vs =>
    match vs with
    | [] => simp
    | [v] => simp
    | _ :: _ :: _ => simp

theorem values_ok {e : Found} {name : Str} : (∃ s, values e name = .ok s) ↔ ∃ v, e.attributes.lookup name = some v := by
  unfold values
  cases h : e.attributes.lookup name <;> simp

theorem gotHost_nil (c : Config) (rev : List Reverse) (e : Found) (fs : Files) :
    (gotHost c [] rev e fs).1 = fs ∧ ((gotHost c [] rev e fs).2 = .ok () ↔ Readable e) := by
  unfold gotHost Readable
  rw [← only_ok, ← values_ok]
  cases only e "cn".toList with
  | error x => simp
  | ok name =>
    cases values e "ipHostNumber".toList with
    | error x => simp
    | ok ips => simp [gotAddresses_nil]

theorem gotHosts_nil (c : Config) (rev : List Reverse) (es : List Found) (fs : Files) :
    (gotHosts c [] rev es fs).1 = fs ∧ ((gotHosts c [] rev es fs).2 = .ok () ↔ ∀ e ∈ es, Readable e) := by
  induction es with
  | nil => simp [gotHosts]
  | cons e es ih =>
    have h := gotHost_nil c rev e fs
    unfold gotHosts
    generalize gotHost c [] rev e fs = p at h ⊢
    obtain ⟨fs', r⟩ := p
    obtain ⟨h1, h2⟩ := h
    simp only at h1 h2
    subst h1
    cases r with
    | error x =>
      have : ¬ Readable e := fun h => by simpa using h2.mpr h
      simp [this]
    | ok u =>
      have : Readable e := h2.mp rfl
      simp [this, ih]

/-! ### Runs -/

/-- A directory for which a run goes well. -/
def Empty (d : Directory) : Prop := d.connects = true ∧ d.nets = some [] ∧ (∀ e ∈ d.hosts, Readable e) ∧ d.hostsEnd = true

theorem connected_eq (c : Config) (d : Directory) (fs : Files) (rev : List Reverse) :
    (Empty d ∧ connected c d fs rev = (fs, rev, .ok ())) ∨ (¬ Empty d ∧ ∃ x, connected c d fs rev = (fs, rev, .error x)) := by
  unfold connected Empty
  cases d.connects with
  | false => exact .inr ⟨by simp, _, rfl⟩
  | true =>
    cases d.nets with
    | none => exact .inr ⟨by simp, _, rfl⟩
    | some es =>
      cases es with
      | cons e es =>
        obtain ⟨x, hx⟩ := gotNets_cons c e es fs rev
        exact .inr ⟨by simp, x, by simp [hx]⟩
      | nil =>
        have h := gotHosts_nil c rev d.hosts fs
        simp only [gotNets, Bool.not_true, Bool.false_eq_true, ↓reduceIte]
        generalize gotHosts c [] rev d.hosts fs = p at h ⊢
        obtain ⟨fs', r⟩ := p
        obtain ⟨h1, h2⟩ := h
        simp only at h1 h2
        subst h1
        cases r with
        | error x =>
          refine .inr ⟨?_, x, rfl⟩
          intro ⟨_, _, h, _⟩
          simpa using h2.mpr h
        | ok u =>
          cases he : d.hostsEnd with
          | true => exact .inl ⟨by simpa [he] using h2.mp rfl, by simp⟩
          | false => exact .inr ⟨by simp, .other, by simp⟩

theorem tmp_ne (c : Config) : c.tmp ≠ c.forward := by
  intro h
  have := congrArg List.length h
  unfold Config.tmp tempName at this
  simp at this

theorem renameAll_none (rev : List Reverse) (h : ∀ d ∈ rev, d.temp = none) (fs : Files) : renameAll rev fs = (fs, .ok ()) := by
  induction rev with
  | nil => rfl
  | cons d ds ih =>
    simp only [List.mem_cons, forall_eq_or_imp] at h
    simp [renameAll, h.1, ih h.2]

theorem unlinkAll_none (rev : List Reverse) (h : ∀ d ∈ rev, d.temp = none) (fs : Files) : unlinkAll rev fs = (fs, .ok ()) := by
  induction rev with
  | nil => rfl
  | cons d ds ih =>
    simp only [List.mem_cons, forall_eq_or_imp] at h
    simp [unlinkAll, h.1, ih h.2]

theorem main_eq (c : Config) (d : Directory) (rev : List Reverse) (h : ∀ d ∈ rev, d.temp = none) (fs : Files) :
    (Empty d ∧ main c d rev fs = ((fs.set c.tmp none).set c.forward (some (origin c.domain)), 0)) ∨
    (¬ Empty d ∧ main c d rev fs = (fs.set c.tmp none, 1)) := by
  have h0 : ∃ fs0 : Files, ((fs.set c.tmp (some [])).print c.tmp ("$ORIGIN\t".toList ++ c.domain ++ ['.'])).print c.tmp [] = fs0 ∧
      fs0 c.tmp = some (origin c.domain) ∧ ∀ p, p ≠ c.tmp → fs0 p = fs p := by
    refine ⟨_, rfl, ?_, ?_⟩
    · have e : ".\n\n".toList = ['.', '\n', '\n'] := by decide
      unfold origin
      rw [e]
      generalize "$ORIGIN\t".toList = o
      simp [Files.print, Files.set]
    · intro p hp
      simp [Files.print, Files.set, hp]
  obtain ⟨fs0, e0, h1, h2⟩ := h0
  have s : ∀ t, fs0.set c.tmp t = fs.set c.tmp t := by
    intro t
    funext p
    simp only [Files.set]
    split
    · rfl
    · exact h2 p ‹_›
  unfold main
  simp only [e0]
  obtain ⟨hd, hc⟩ | ⟨hd, x, hc⟩ := connected_eq c d fs0 rev
  · refine .inl ⟨hd, ?_⟩
    simp [hc, filesOk, Files.rename, h1, renameAll_none rev h, s]
  · refine .inr ⟨hd, ?_⟩
    simp [hc, filesAbort, Files.unlink, h1, unlinkAll_none rev h, s]

theorem optReverse_temp {R : Reader} {t : Str} {r : Reverse} (h : optReverse R t = .ok r) : r.temp = none := by
  unfold optReverse at h
  repeat' split at h
  all_goals first | (cases h; done) | (cases h; rfl)

theorem optReverses_temp {R : Reader} {ts : List Str} : ∀ {rs : List Reverse}, optReverses R ts = .ok rs → ∀ d ∈ rs, d.temp = none := by
  induction ts with
  | nil => intro rs h; cases h; simp
  | cons t ts ih =>
    intro rs h
    simp only [optReverses, bind, Except.bind, pure, Except.pure] at h
    cases h1 : optReverse R t with
    | error e => simp [h1] at h
    | ok r =>
      cases h2 : optReverses R ts with
      | error e => simp [h1, h2] at h
      | ok rs' =>
        simp only [h1, h2, Except.ok.injEq] at h
        subst h
        simp only [List.mem_cons, forall_eq_or_imp]
        exact ⟨optReverse_temp h1, ih h2⟩

/-- What a run can do: nothing, or leave a file with the origin alone, or take the temporary file away. -/
theorem script_eq (c : Config) (d : Directory) (options : List Str) (fs : Files) :
    (∃ r rs, optReverses c.reader options = .ok (r :: rs) ∧
      ((Empty d ∧ consoleScript c d options fs = ((fs.set c.tmp none).set c.forward (some (origin c.domain)), .ok 0)) ∨
       (¬ Empty d ∧ consoleScript c d options fs = (fs.set c.tmp none, .ok 1)))) ∨
    ((∀ r rs, optReverses c.reader options ≠ .ok (r :: rs)) ∧ ∃ x, x ≠ .ok 0 ∧ consoleScript c d options fs = (fs, x)) := by
  unfold consoleScript
  cases h : optReverses c.reader options with
  | error e =>
    refine .inr ⟨by simp, ?_⟩
    cases e
    case other => exact ⟨.ok 1, by decide, rfl⟩
    all_goals exact ⟨.error _, by simp, rfl⟩
  | ok rs =>
    cases rs with
    | nil => exact .inr ⟨by simp, .error .keyError, by simp, rfl⟩
    | cons r rs =>
      refine .inl ⟨r, rs, rfl, ?_⟩
      obtain ⟨hd, e⟩ | ⟨hd, e⟩ := main_eq c d (r :: rs) (optReverses_temp h) fs
      · exact .inl ⟨hd, by simp [e]⟩
      · exact .inr ⟨hd, by simp [e]⟩

/-- A run goes well only if there is nothing to export. -/
theorem success_iff (c : Config) (d : Directory) (options : List Str) (fs : Files) :
    (consoleScript c d options fs).2 = .ok 0 ↔
      (∃ r rs, optReverses c.reader options = .ok (r :: rs)) ∧ d.connects = true ∧ d.nets = some [] ∧ (∀ e ∈ d.hosts, Readable e) ∧
        d.hostsEnd = true := by
  obtain ⟨r, rs, h, ⟨hd, e⟩ | ⟨hd, e⟩⟩ | ⟨h, x, hx, e⟩ := script_eq c d options fs
  · rw [e]
    exact ⟨fun _ => ⟨⟨r, rs, h⟩, hd⟩, fun _ => rfl⟩
  · rw [e]
    exact ⟨fun h => by simp at h, fun h => absurd h.2 hd⟩
  · rw [e]
    exact ⟨fun h => absurd h hx, fun ⟨⟨r, rs, h'⟩, _⟩ => absurd h' (h r rs)⟩

/-- A run that goes well writes a zone file without records. -/
theorem success_writes (c : Config) (d : Directory) (options : List Str) (fs : Files) (h : (consoleScript c d options fs).2 = .ok 0) :
    (consoleScript c d options fs).1 c.forward = some (origin c.domain) := by
  obtain ⟨r, rs, _, ⟨hd, e⟩ | ⟨hd, e⟩⟩ | ⟨_, x, hx, e⟩ := script_eq c d options fs
  · simp [e, Files.set]
  · simp [e] at h
  · simp only [e] at h
    exact absurd h hx

/-- A net makes the run fail, whatever it is. -/
theorem some_net (c : Config) (d : Directory) (options : List Str) (fs : Files) (e : Found) (es : List Found) (h : d.nets = some (e :: es)) :
    (consoleScript c d options fs).2 ≠ .ok 0 := by
  rw [ne_eq, success_iff]
  simp [h]

/-- A run that does not go well leaves all files as they were; only the temporary file of the run is taken away. -/
theorem failure_keeps (c : Config) (d : Directory) (options : List Str) (fs : Files) (h : (consoleScript c d options fs).2 ≠ .ok 0)
    (p : Str) (hp : p ≠ c.forward ++ ['.'] ++ Decimal.ofInt c.pid ++ ".tmp".toList) : (consoleScript c d options fs).1 p = fs p := by
  have hp' : p ≠ c.tmp := hp
  obtain ⟨r, rs, _, ⟨hd, e⟩ | ⟨hd, e⟩⟩ | ⟨_, x, hx, e⟩ := script_eq c d options fs
  · simp [e] at h
  · simp [e, Files.set, hp']
  · simp [e]

/-- Files other than the forward zone are never written: there are no reverse zones. -/
theorem others_kept (c : Config) (d : Directory) (options : List Str) (fs : Files) (p : Str) (hf : p ≠ c.forward)
    (hp : p ≠ c.forward ++ ['.'] ++ Decimal.ofInt c.pid ++ ".tmp".toList) : (consoleScript c d options fs).1 p = fs p := by
  have hp' : p ≠ c.tmp := hp
  obtain ⟨r, rs, _, ⟨hd, e⟩ | ⟨hd, e⟩⟩ | ⟨_, x, hx, e⟩ := script_eq c d options fs
  · simp [e, Files.set, hp', hf]
  · simp [e, Files.set, hp']
  · simp [e]

/-- A run that gets to work leaves no temporary file. -/
theorem tidy (c : Config) (d : Directory) (options : List Str) (fs : Files) (r : Reverse) (rs : List Reverse)
    (h : optReverses c.reader options = .ok (r :: rs)) :
    (consoleScript c d options fs).1 (c.forward ++ ['.'] ++ Decimal.ofInt c.pid ++ ".tmp".toList) = none := by
  show (consoleScript c d options fs).1 c.tmp = none
  obtain ⟨r, rs, _, ⟨hd, e⟩ | ⟨hd, e⟩⟩ | ⟨h', x, hx, e⟩ := script_eq c d options fs
  · simp [e, Files.set, tmp_ne]
  · simp [e, Files.set]
  · exact absurd h (h' r rs)

/-- Without a `--reverse` option nothing is done. -/
theorem no_option (c : Config) (d : Directory) (fs : Files) : consoleScript c d [] fs = (fs, .error .keyError) := rfl

/-! ### Options -/

theorem split1_some {c : Char} : ∀ {s a b : Str}, split1 c s = some (a, b) → s = a ++ c :: b ∧ c ∉ a := by
  intro s
  induction s with
  | nil => intro a b h; simp [split1] at h
  | cons x s ih =>
    intro a b h
    unfold split1 at h
    split at h
    · cases h
      simp [*]
    · cases h' : split1 c s with
      | none => simp [h'] at h
      | some p =>
        simp only [h', Option.map_some, Option.some.injEq, Prod.mk.injEq] at h
        obtain ⟨rfl, rfl⟩ := h
        obtain ⟨e, hn⟩ := ih h'
        refine ⟨by rw [e]; simp, ?_⟩
        simp only [List.mem_cons, not_or]
        exact ⟨fun e => ‹¬ x = c› e.symm, hn⟩

/-- What a `--reverse` option means. -/
theorem option_iff (R : Reader) (text : Str) (r : Reverse) :
    optReverse R text = .ok r ↔ ∃ address mask, text = address ++ ['/'] ++ mask ++ [':'] ++ r.filename ∧ '/' ∉ address ∧ ':' ∉ address ∧ ':' ∉ mask ∧
      aton R address = .ok r.address ∧ aton R mask = .ok r.netmask ∧ r.temp = none := by
  constructor
  · intro h
    unfold optReverse at h
    cases h1 : split1 ':' text with
    | none => simp [h1] at h
    | some p =>
      obtain ⟨net, filename⟩ := p
      cases h2 : split1 '/' net with
      | none => simp [h1, h2] at h
      | some p =>
        obtain ⟨address, mask⟩ := p
        obtain ⟨e1, n1⟩ := split1_some h1
        obtain ⟨e2, n2⟩ := split1_some h2
        simp only [h1, h2] at h
        cases h3 : aton R address with
        | error e => rw [h3] at h; revert h; cases e <;> simp
        | ok a =>
          cases h4 : aton R mask with
          | error e => rw [h3, h4] at h; revert h; cases e <;> simp
          | ok m =>
            simp only [h3, h4, Except.ok.injEq] at h
            subst h
            subst e2
            simp only [List.mem_append, List.mem_cons, not_or] at n1
            exact ⟨address, mask, by rw [e1]; simp, n2, n1.1, n1.2.2, h3, h4, rfl⟩
  · rintro ⟨address, mask, rfl, h1, h2, h3, h4, h5, h6⟩
    have hn : ':' ∉ address ++ '/' :: mask := by
      simp only [List.mem_append, List.mem_cons, not_or]
      exact ⟨h2, by decide, h3⟩
    have e : address ++ ['/'] ++ mask ++ [':'] ++ r.filename = (address ++ '/' :: mask) ++ ':' :: r.filename := by simp
    unfold optReverse
    rw [e, C103.split1_first hn]
    simp only [C103.split1_first h1, h4, h5, ← h6]

/-! ### Which net an address is in -/

/-- An address is in a net if its first bits say so. -/
theorem in_net (R : Reader) (n : Net) (ipText : Str) (net ip k : Nat) (hk : k ≤ 32) (h1 : aton R n.address = .ok net)
    (h2 : aton R n.mask = .ok (C54.onesThenZeros k)) (h3 : aton R ipText = .ok ip) (hip : ip < 2 ^ 32) :
    ∃ b, isInNet R n ipText = .ok b ∧ (b = true ↔ Inside net ip k) := by
  refine ⟨ip &&& C54.onesThenZeros k == net, by simp [isInNet, h1, h2, h3, bind, Except.bind, pure, Except.pure], ?_⟩
  rw [C61.and_ones hip hk, beq_iff_eq]
  have hp : 0 < 2 ^ (32 - k) := Nat.two_pow_pos _
  unfold Inside
  generalize 2 ^ (32 - k) = w at hp
  constructor
  · intro e
    refine ⟨ip / w, ip % w, Nat.mod_lt _ hp, ?_, e.symm⟩
    rw [Nat.mul_comm]
    exact (Nat.div_add_mod ip w).symm
  · rintro ⟨q, r, hr, rfl, rfl⟩
    rw [Nat.mul_comm q w, Nat.mul_add_div hp, Nat.div_eq_of_lt hr, Nat.add_zero, Nat.mul_comm]

/-- Masks that are given as a length, and addresses of four octets. -/
theorem in_net_length (R : Reader) (n : Net) (ipText : Str) (net k : Nat) (q : UInt8 × UInt8 × UInt8 × UInt8) (hk : k ≤ 32)
    (h1 : aton R n.address = .ok net) (h2 : R.int n.mask = some (k : Int)) (h3 : R.int ipText = none) (h4 : R.inet ipText = .ok q) :
    ∃ b, isInNet R n ipText = .ok b ∧
      (b = true ↔ Inside net (((q.1.toNat * 256 + q.2.1.toNat) * 256 + q.2.2.1.toNat) * 256 + q.2.2.2.toNat) k) := by
  obtain ⟨a, b, c, d⟩ := q
  refine in_net R n ipText net _ k hk h1 ?_ ?_ (C54.quad_lt a b c d)
  · unfold aton
    simp only [h2, C54.mask_of_length]
    rw [show min 32 (k : Int).toNat = k by omega]
  · simp only [aton, h3, h4]
    rfl

/-- An address that cannot be read is in no net; neither is anything in a net that cannot be read. -/
theorem unreadable (R : Reader) (n : Net) (ipText : Str) (h1 : ∀ e, aton R n.address = .error e → e = .osError)
    (h2 : ∀ e, aton R n.mask = .error e → e = .osError) (h3 : aton R ipText = .error .osError) : isInNet R n ipText = .ok false := by
  unfold isInNet
  cases e1 : aton R n.address with
  | error e => rw [h1 e e1]; rfl
  | ok a =>
    cases e2 : aton R n.mask with
    | error e => rw [h2 e e2]; rfl
    | ok m => rw [h3]; rfl

/-! ### Hosts -/

/-- The net of an address is the first that has it. -/
theorem first_net (R : Reader) (ip : Str) (nets : List (Net × Option Nat)) (p : Net × Option Nat) :
    parentOf R ip nets = .ok (some p) ↔ First (fun q => isInNet R q.1 ip) nets p := by
  induction nets with
  | nil => simp [parentOf, First]
  | cons q qs ih =>
    unfold parentOf
    cases h : isInNet R q.1 ip with
    | error e =>
      constructor
      · intro h'; simp at h'
      · rintro ⟨before, after, e1, e2, e3⟩
        cases before with
        | nil => simp only [List.nil_append, List.cons.injEq] at e1; rw [e1.1] at h; simp [h] at e3
        | cons b bs =>
          simp only [List.cons_append, List.cons.injEq] at e1
          have := e2 b (by simp)
          rw [← e1.1] at this
          simp [h] at this
    | ok b =>
      cases b with
      | true =>
        constructor
        · intro h'
          simp only [Except.ok.injEq, Option.some.injEq] at h'
          subst h'
          exact ⟨[], qs, rfl, by simp, h⟩
        · rintro ⟨before, after, e1, e2, e3⟩
          cases before with
          | nil => simp only [List.nil_append, List.cons.injEq] at e1; simp [e1.1]
          | cons b bs =>
            simp only [List.cons_append, List.cons.injEq] at e1
            have := e2 b (by simp)
            rw [← e1.1] at this
            simp [h] at this
      | false =>
        simp only [ih]
        constructor
        · rintro ⟨before, after, e1, e2, e3⟩
          refine ⟨q :: before, after, by rw [e1]; rfl, ?_, e3⟩
          simp only [List.mem_cons, forall_eq_or_imp]
          exact ⟨h, e2⟩
        · rintro ⟨before, after, e1, e2, e3⟩
          cases before with
          | nil => simp only [List.nil_append, List.cons.injEq] at e1; rw [e1.1] at h; simp [h] at e3
          | cons b bs =>
            simp only [List.cons_append, List.cons.injEq] at e1
            exact ⟨bs, after, e1.2, fun x hx => e2 x (by simp [hx]), e3⟩

/-- An address is in no net if each net says so. -/
theorem no_net (R : Reader) (ip : Str) (nets : List (Net × Option Nat)) :
    parentOf R ip nets = .ok none ↔ ∀ q ∈ nets, isInNet R q.1 ip = .ok false := by
  induction nets with
  | nil => simp [parentOf]
  | cons q qs ih =>
    unfold parentOf
    simp only [List.mem_cons, forall_eq_or_imp]
    cases h : isInNet R q.1 ip with
    | error e => simp
    | ok b => cases b <;> simp [ih]

/-- What one address of a host adds to the file at a path. -/
def added (c : Config) (rev : List Reverse) (dn name ip path : Str) : Option (Net × Option Nat) → Str
  | none => []
  | some (n, zone) =>
    (if path = c.tmp then aRecord dn name n.name ip else []) ++
    match zone with
    | none => []
    | some i =>
      match rev[i]? with
      | none => []
      | some d =>
        if d.temp = some path then
          ";  ".toList ++ dn ++ ['\n'] ++ formatPTR (name ++ ['.'] ++ n.name ++ ['.'] ++ c.domain) ip ++ ['\n']
        else []

theorem print_at (fs : Files) (q p text : Str) : (fs.print q text) p = (fs p).map (fun t => t ++ if p = q then text ++ ['\n'] else []) := by
  unfold Files.print Files.set
  split
  · subst_vars; simp
  · cases fs p <;> simp

theorem writeAddress_at (c : Config) (rev : List Reverse) (dn name ip : Str) (n : Net) (zone : Option Nat) (fs : Files) (path : Str) :
    writeAddress c rev dn name ip n zone fs path = (fs path).map (fun t => t ++ added c rev dn name ip path (some (n, zone))) := by
  have e1 : "\n\n".toList = ['\n', '\n'] := by decide
  have fwd : ";  ".toList ++ dn ++ ['\n'] ++ formatIPAddress (name ++ ['.'] ++ n.name) ip ++ ['\n'] = aRecord dn name n.name ip := by
    unfold aRecord formatIPAddress
    rw [e1]
    generalize "\tIN A\t".toList = x
    generalize ";  ".toList = y
    simp
  unfold writeAddress added
  simp only
  generalize formatPTR (name ++ ['.'] ++ n.name ++ ['.'] ++ c.domain) ip = t2
  generalize ";  ".toList ++ dn ++ ['\n'] ++ formatIPAddress (name ++ ['.'] ++ n.name) ip = t1 at fwd
  generalize ";  ".toList ++ dn ++ ['\n'] ++ t2 = t3
  rw [← fwd]
  cases zone with
  | none => simp [print_at]
  | some i =>
    cases hr : rev[i]? with
    | none => simp [print_at, hr]
    | some d =>
      cases ht : d.temp with
      | none => simp [print_at, hr, ht]
      | some temp =>
        simp only [Option.bind_some, hr, ht, print_at, Option.some.injEq]
        cases fs path with
        | none => simp
        | some t =>
          by_cases h : temp = path
          · subst h; simp
          · simp [h, show ¬ path = temp from fun e => h e.symm]

/-- Each address of a host is written once, in order, to the forward zone and to the reverse zone of its net; addresses in no
net are left out.  Nothing else is written. -/
theorem hosts_written (c : Config) (nets : List (Net × Option Nat)) (rev : List Reverse) (dn name : Str) (parent : Str → Option (Net × Option Nat))
    (path : Str) : ∀ (ips : List Str) (fs : Files), (∀ ip ∈ ips, parentOf c.reader ip nets = .ok (parent ip)) →
      (gotAddresses c nets rev dn name ips fs).2 = .ok () ∧
      (gotAddresses c nets rev dn name ips fs).1 path =
        (fs path).map (fun t => t ++ ips.flatMap fun ip => added c rev dn name ip path (parent ip)) := by
  intro ips
  induction ips with
  | nil => intro fs _; simp [gotAddresses]
  | cons ip ips ih =>
    intro fs h
    simp only [List.mem_cons, forall_eq_or_imp] at h
    unfold gotAddresses
    rw [h.1]
    cases hp : parent ip with
    | none =>
      obtain ⟨h1, h2⟩ := ih fs h.2
      refine ⟨h1, ?_⟩
      simp only [h2, List.flatMap_cons, hp, added, List.nil_append]
    | some p =>
      obtain ⟨n, zone⟩ := p
      obtain ⟨h1, h2⟩ := ih (writeAddress c rev dn name ip n zone fs) h.2
      refine ⟨h1, ?_⟩
      simp only [h2]
      rw [writeAddress_at, List.flatMap_cons, hp]
      cases fs path <;> simp

/-! ### Names of addresses -/

/-- The record for an address turns its labels around. -/
theorem ptr_name (dn name net domain a b c d : Str) (h : ∀ x ∈ [a, b, c, d], '.' ∉ x) :
    ";  ".toList ++ dn ++ ['\n'] ++ formatPTR (name ++ ['.'] ++ net ++ ['.'] ++ domain) (a ++ ['.'] ++ b ++ ['.'] ++ c ++ ['.'] ++ d) ++ ['\n'] =
      ptrRecord dn name net domain a b c d := by
  simp only [List.mem_cons, List.not_mem_nil, or_false, forall_eq_or_imp, forall_eq] at h
  have e : splitAll '.' (a ++ ['.'] ++ b ++ ['.'] ++ c ++ ['.'] ++ d) = [a, b, c, d] := by
    rw [show a ++ ['.'] ++ b ++ ['.'] ++ c ++ ['.'] ++ d = a ++ '.' :: (b ++ '.' :: (c ++ '.' :: d)) by simp]
    rw [C103.splitAll_first h.1, C103.splitAll_first h.2.1, C103.splitAll_first h.2.2.1, C103.splitAll_last h.2.2.2]
  have l1 : ".in-addr.arpa.\tIN PTR\t".toList = '.' :: ("in-addr.arpa.".toList ++ "\tIN PTR\t".toList) := by decide
  have l2 : ".\n\n".toList = ".\n".toList ++ ['\n'] := by decide
  unfold formatPTR ptrRecord
  rw [e, l1, l2]
  generalize "in-addr.arpa.".toList = x1
  generalize "\tIN PTR\t".toList = x2
  generalize ".\n".toList = x3
  generalize ";  ".toList = x4
  simp [joinWith]

/-! ### Putting files in place -/

/-- The paths of the files that a run has written. -/
def pairs : List Reverse → List (Str × Str)
  | [] => []
  | d :: ds =>
    match d.temp with
    | none => pairs ds
    | some t => (t, d.filename) :: pairs ds

theorem renameAll_moved (rev : List Reverse) : ∀ (fs : Files), ((pairs rev).flatMap fun x => [x.1, x.2]).Nodup → (∀ x ∈ pairs rev, fs x.1 ≠ none) →
    renameAll rev fs = (moved (pairs rev) fs, .ok ()) := by
  induction rev with
  | nil => intro fs _ _; rfl
  | cons d ds ih =>
    intro fs hn he
    cases ht : d.temp with
    | none =>
      have e : pairs (d :: ds) = pairs ds := by simp [pairs, ht]
      rw [e] at hn he ⊢
      simp [renameAll, ht, ih fs hn he]
    | some t =>
      have e : pairs (d :: ds) = (t, d.filename) :: pairs ds := by simp [pairs, ht]
      rw [e] at hn he ⊢
      simp only [List.flatMap_cons, List.cons_append, List.nil_append, List.nodup_cons, List.mem_cons, not_or] at hn
      obtain ⟨⟨n1, n2⟩, n3, n4⟩ := hn
      have t1 : ∀ x ∈ pairs ds, x.1 ≠ t ∧ x.2 ≠ t := fun x hx =>
        ⟨fun e => n2 (List.mem_flatMap.mpr ⟨x, hx, by simp [e]⟩), fun e => n2 (List.mem_flatMap.mpr ⟨x, hx, by simp [e]⟩)⟩
      have t2 : ∀ x ∈ pairs ds, x.1 ≠ d.filename ∧ x.2 ≠ d.filename := fun x hx =>
        ⟨fun e => n3 (List.mem_flatMap.mpr ⟨x, hx, by simp [e]⟩), fun e => n3 (List.mem_flatMap.mpr ⟨x, hx, by simp [e]⟩)⟩
      have ht0 := he (t, d.filename) (by simp)
      simp only at ht0
      cases hf : fs t with
      | none => exact absurd hf ht0
      | some text =>
        simp only [renameAll, ht, Files.rename, hf]
        rw [ih _ n4 ?_]
        · congr 1
          funext p
          unfold moved
          rw [List.find?_cons]
          by_cases hp : d.filename = p
          · subst hp
            have : (pairs ds).find? (fun x => decide (x.2 = d.filename)) = none := by
              rw [List.find?_eq_none]
              intro x hx
              simp [(t2 x hx).2]
            have hm : d.filename ∉ (pairs ds).map (·.1) := by
              intro hm
              obtain ⟨x, hx, e⟩ := List.mem_map.mp hm
              exact (t2 x hx).1 e
            rw [this]
            simp [hm, Files.set, hf]
          · have hp' : ¬ p = d.filename := fun e => hp e.symm
            simp only [hp, decide_false]
            cases hfind : (pairs ds).find? (fun x => decide (x.2 = p)) with
            | some x =>
              have hx := List.mem_of_find?_eq_some hfind
              simp [Files.set, (t1 x hx).1, (t2 x hx).1]
            | none =>
              simp only [List.map_cons, List.mem_cons]
              by_cases hpt : p = t
              · subst hpt
                simp [Files.set, hp']
              · simp only [Files.set, if_neg hp', hpt, false_or, if_false]
        · intro x hx
          simp only [Files.set, (t1 x hx).1, (t2 x hx).1, if_false]
          exact he x (by simp [hx])

/-- If no two paths are the same, each file that was written is put in place. -/
theorem published (c : Config) (rev : List Reverse) (fs : Files)
    (hn : (((c.tmp, c.forward) :: pairs rev).flatMap fun x => [x.1, x.2]).Nodup) (he : ∀ x ∈ (c.tmp, c.forward) :: pairs rev, fs x.1 ≠ none) :
    filesOk c rev fs = (moved ((c.tmp, c.forward) :: pairs rev) fs, .ok ()) :=
  renameAll_moved (⟨0, 0, c.forward, some c.tmp⟩ :: rev) fs hn he

/-- Otherwise a file can be left under its temporary name after others were put in place: two options with the same file. -/
theorem not_published : ∃ (c : Config) (rev : List Reverse) (fs : Files), (∀ x ∈ (c.tmp, c.forward) :: pairs rev, fs x.1 ≠ none) ∧
    (filesOk c rev fs).2 = .error .osError ∧ (filesOk c rev fs).1 c.forward = some ['z'] := by
  refine ⟨⟨⟨fun _ => none, fun _ => .error .osError⟩, 1, [], ['f']⟩, [⟨0, 0, ['r'], some ['t']⟩, ⟨0, 0, ['r'], some ['t']⟩],
    fun _ => some ['z'], ?_, ?_, ?_⟩
  · intro x _; simp
  · decide +kernel
  · decide +kernel

/-! ### MaraDNS -/

/-- What is printed for a net before it fails. -/
def maraStart (n : Net) : Str :=
  '#' :: n.dn ++ ['\n'] ++ 'A' :: n.name ++ ".%|86400|".toList ++ n.address ++ ['\n'] ++ maraPTR n.name n.address

theorem mara_net (R : Reader) (n : Net) : ∃ e, maraNet R n = (maraStart n, .error e) := by
  have hs : '#' :: n.dn ++ ['\n'] ++ maraAddress n.name n.address ++ maraPTR n.name n.address = maraStart n := by
    unfold maraStart maraAddress
    simp
  unfold maraNet
  simp only [hs, bind, Except.bind, no_broadcast]
  cases aton R n.address with
  | error e => exact ⟨e, rfl⟩
  | ok ip =>
    cases aton R n.mask with
    | error e => exact ⟨e, rfl⟩
    | ok mask =>
      dsimp only
      cases ntoa (.ofNat mask) with
      | error e => exact ⟨e, rfl⟩
      | ok t => exact ⟨.other, rfl⟩

theorem maraAddresses_nil (R : Reader) (dn name : Str) (ips : List Str) : maraAddresses R [] dn name ips = ([], .ok ()) := by
  induction ips with
  | nil => rfl
  | cons ip ips ih => simp [maraAddresses, maraParent, ih]

theorem maraHosts_nil (R : Reader) (es : List Found) : (maraHosts R [] es).1 = [] ∧ ((maraHosts R [] es).2 = .ok () ↔ ∀ e ∈ es, Readable e) := by
  induction es with
  | nil => simp [maraHosts]
  | cons e es ih =>
    have h1 : (∃ s, only e "cn".toList = .ok s) ↔ _ := only_ok
    have h2 : (∃ s, values e "ipHostNumber".toList = .ok s) ↔ _ := values_ok
    simp only [List.mem_cons, forall_eq_or_imp]
    unfold maraHosts
    unfold Readable
    rw [← h1, ← h2]
    cases only e "cn".toList with
    | error x => simp
    | ok name =>
      cases values e "ipHostNumber".toList with
      | error x => simp
      | ok ips =>
        simp only [maraAddresses_nil]
        refine ⟨by simp [ih.1], ?_⟩
        rw [ih.2]
        constructor
        · intro h
          exact ⟨⟨⟨_, rfl⟩, _, rfl⟩, fun e he => h e he⟩
        · intro h
          exact fun e he => h.2 e he

/-- The test for a net is that of the other program, without its way with texts that cannot be read. -/
theorem mara_in (R : Reader) (n : Net) (ip : Str) :
    (∀ b, maraIn R n ip = .ok b → isInNet R n ip = .ok b) ∧ (maraIn R n ip = .error .osError → isInNet R n ip = .ok false) ∧
    (∀ e, e ≠ .osError → maraIn R n ip = .error e → isInNet R n ip = .error e) := by
  have h : isInNet R n ip = match maraIn R n ip with | .error .osError => .ok false | r => r := rfl
  rw [h]
  cases maraIn R n ip with
  | ok b => simp
  | error e =>
    refine ⟨by simp, fun h => by cases h; rfl, ?_⟩
    intro e' hn h
    cases h
    cases e <;> first | rfl | exact absurd rfl hn

/-- Each address of a host in a net is printed once, in order. -/
theorem mara_hosts (R : Reader) (nets : List Net) (dn name : Str) (parent : Str → Option Net) (ips : List Str)
    (h : ∀ ip ∈ ips, maraParent R ip nets = .ok (parent ip)) :
    maraAddresses R nets dn name ips = (ips.flatMap fun ip =>
      match parent ip with
      | none => []
      | some n => "#  ".toList ++ dn ++ ['\n'] ++ maraAddress (name ++ ['.'] ++ n.name) ip ++ maraPTR (name ++ ['.'] ++ n.name) ip, .ok ()) := by
  induction ips with
  | nil => rfl
  | cons ip ips ih =>
    simp only [List.mem_cons, forall_eq_or_imp] at h
    unfold maraAddresses
    rw [h.1]
    simp only [ih h.2, List.flatMap_cons]
    cases parent ip <;> rfl

/-- The net of an address is the first that has it. -/
theorem mara_first (R : Reader) (ip : Str) (nets : List Net) (n : Net) :
    First (fun q => maraIn R q ip) nets n → maraParent R ip nets = .ok (some n) := by
  rintro ⟨before, after, rfl, h1, h2⟩
  induction before with
  | nil => simp [maraParent, h2]
  | cons b bs ih =>
    simp only [List.mem_cons, forall_eq_or_imp] at h1
    simp [maraParent, h1.1, ih h1.2]

/-- The whole run: it ends well if there is nothing to export, and then prints nothing; the first net ends it, after two
records of that net. -/
theorem mara_run (R : Reader) (d : Directory) :
    ((maraMain R d).2 = 0 ↔ d.connects = true ∧ d.nets = some [] ∧ (∀ e ∈ d.hosts, Readable e) ∧ d.hostsEnd = true) ∧
    ((maraMain R d).2 = 0 → (maraMain R d).1 = []) ∧
    (∀ e es n, d.connects = true → d.nets = some (e :: es) → readNet e = .ok n → maraMain R d = (maraStart n, 1)) ∧
    ((∀ e es n, d.nets = some (e :: es) → readNet e ≠ .ok n) → (maraMain R d).1 = []) := by
  unfold maraMain
  cases d.connects with
  | false => simp
  | true =>
    cases d.nets with
    | none => simp
    | some es =>
      cases es with
      | nil =>
        obtain ⟨h1, h2⟩ := maraHosts_nil R d.hosts
        simp only [maraNets]
        generalize maraHosts R [] d.hosts = p at h1 h2 ⊢
        obtain ⟨t, r⟩ := p
        simp only at h1 h2
        subst h1
        cases r with
        | error x =>
          have : ¬ ∀ e ∈ d.hosts, Readable e := fun h => by simpa using h2.mpr h
          simp [this]
        | ok u =>
          have := h2.mp rfl
          cases he : d.hostsEnd
          · simp
          · simpa using this
      | cons e es =>
        cases hr : readNet e with
        | error x =>
          simp only [maraNets, hr]
          refine ⟨by simp, by simp, ?_, by simp⟩
          intro e' es' n' _ h1 h2
          cases h1
          rw [hr] at h2
          cases h2
        | ok n =>
          obtain ⟨x, hx⟩ := mara_net R n
          simp only [maraNets, hr, hx]
          refine ⟨by simp, by simp, ?_, fun h => absurd hr (h e es n rfl)⟩
          intro e' es' n' _ h1 h2
          cases h1
          rw [hr] at h2
          cases h2
          rfl

/-! ### Octets -/

theorem only_eq {e : Found} {name s : Str} : only e name = .ok s ↔ ∃ v, e.attributes.lookup name = some [v] ∧ s = Checker.formatted v := by
  unfold only values
  cases h : e.attributes.lookup name with
  | none => simp
  | some vs =>
    match vs with
    | [] => simp
    | [v] => simp [eq_comm]
    | _ :: _ :: _ => simp

/-- A host that cannot be printed ends the printing: those before it have been printed, and nothing after it matters. -/
theorem mara_stops (R : Reader) (nets : List Net) (before : List Found) (after : List Found) :
    (∀ x, (maraHosts R nets before).2 = .error x → maraHosts R nets (before ++ after) = maraHosts R nets before) ∧
    ((maraHosts R nets before).2 = .ok () → maraHosts R nets (before ++ after) =
      ((maraHosts R nets before).1 ++ (maraHosts R nets after).1, (maraHosts R nets after).2)) := by
  induction before with
  | nil => exact ⟨fun x h => by simp [maraHosts] at h, fun _ => by simp [maraHosts]⟩
  | cons e es ih =>
    simp only [List.cons_append, maraHosts]
    split
    · exact ⟨fun _ _ => rfl, fun h => by simp at h⟩
    · exact ⟨fun _ _ => rfl, fun h => by simp at h⟩
    · split
      · exact ⟨fun _ _ => rfl, fun h => by simp at h⟩
      · refine ⟨fun x h => ?_, fun h => ?_⟩
        · rw [ih.1 x h]
        · rw [ih.2 h]; simp

/-- An address that cannot be read fails, if there is a net to look for it in. -/
theorem mara_unreadable (R : Reader) (n : Net) (nets : List Net) (e : Found) (es : List Found) (name : PyStr) (ip : PyStr) (ips : List PyStr) (x : PyErr)
    (hc : e.attributes.lookup "cn".toList = some [name]) (hi : e.attributes.lookup "ipHostNumber".toList = some (ip :: ips))
    (hx : maraIn R n (Checker.formatted ip) = .error x) : maraHosts R (n :: nets) (e :: es) = ([], .error x) := by
  unfold maraHosts
  rw [(only_eq (e := e) (name := "cn".toList) (s := Checker.formatted name)).mpr ⟨name, hc, rfl⟩]
  have hv : values e "ipHostNumber".toList = .ok (ip :: ips) := by
    unfold values
    rw [hi]
  rw [hv]
  simp [maraAddresses, maraParent, hx]

/-- Which entries describe a net, and which net. -/
theorem net_read (e : Found) (n : Net) : readNet e = .ok n ↔ ∃ name address mask,
    e.attributes.lookup "cn".toList = some [name] ∧ e.attributes.lookup "ipNetworkNumber".toList = some [address] ∧
    e.attributes.lookup "ipNetmaskNumber".toList = some [mask] ∧
    n = ⟨e.dn, Checker.formatted name, Checker.formatted address, Checker.formatted mask⟩ := by
  have h1 : ∀ s, only e "cn".toList = .ok s ↔ _ := fun s => only_eq
  have h2 : ∀ s, only e "ipNetworkNumber".toList = .ok s ↔ _ := fun s => only_eq
  have h3 : ∀ s, only e "ipNetmaskNumber".toList = .ok s ↔ _ := fun s => only_eq
  unfold readNet
  generalize "cn".toList = k1 at *
  generalize "ipNetworkNumber".toList = k2 at *
  generalize "ipNetmaskNumber".toList = k3 at *
  simp only [bind, Except.bind, pure, Except.pure]
  constructor
  · intro h
    cases e1 : only e k1 with
    | error x => simp [e1] at h
    | ok a =>
      cases e2 : only e k2 with
      | error x => simp [e1, e2] at h
      | ok b =>
        cases e3 : only e k3 with
        | error x => simp [e1, e2, e3] at h
        | ok c =>
          simp only [e1, e2, e3, Except.ok.injEq] at h
          obtain ⟨v1, l1, rfl⟩ := (h1 a).mp e1
          obtain ⟨v2, l2, rfl⟩ := (h2 b).mp e2
          obtain ⟨v3, l3, rfl⟩ := (h3 c).mp e3
          exact ⟨v1, v2, v3, l1, l2, l3, h.symm⟩
  · rintro ⟨v1, v2, v3, l1, l2, l3, rfl⟩
    rw [(h1 _).mpr ⟨v1, l1, rfl⟩, (h2 _).mpr ⟨v2, l2, rfl⟩, (h3 _).mpr ⟨v3, l3, rfl⟩]

/-- Values that are octets, as the client gives them, are read as the text of a Python literal: no text of that form
is an address. -/
theorem octets_unread (R : Reader) (hi : ∀ s, R.int ('b' :: s) = none) (hn : ∀ s, R.inet ('b' :: s) = .error .osError) (e : Found) (n : Net)
    (v : Bytes) (hv : e.attributes.lookup "ipNetworkNumber".toList = some [.bytes v]) (h : readNet e = .ok n) :
    aton R n.address = .error .osError := by
  obtain ⟨v1, v2, v3, _, l2, _, rfl⟩ := (net_read e n).mp h
  rw [hv] at l2
  simp only [Option.some.injEq, List.cons.injEq, and_true] at l2
  subst l2
  unfold aton
  simp only [Checker.formatted, Checker.reprOctets, List.cons_append, hi, hn]

/-! ### Examples -/

/-- A reader that knows some texts. -/
def reader : Reader :=
  ⟨fun s => if s = "24".toList then some 24 else none,
   fun s => if s = "10.0.1.0".toList then .ok (10, 0, 1, 0) else if s = "10.0.1.7".toList then .ok (10, 0, 1, 7)
     else if s = "10.0.2.7".toList then .ok (10, 0, 2, 7) else .error .osError⟩

def config : Config := ⟨reader, 42, "example.com".toList, "zone".toList⟩

def net : Net := ⟨"cn=lab".toList, "lab".toList, "10.0.1.0".toList, "24".toList⟩

def netEntry : Found := ⟨"cn=lab".toList, [("cn".toList, [.text "lab".toList]), ("ipNetworkNumber".toList, [.text "10.0.1.0".toList]),
  ("ipNetmaskNumber".toList, [.text "24".toList])]⟩

def host : Found := ⟨"cn=www".toList, [("cn".toList, [.bytes [119, 119, 119]]), ("ipHostNumber".toList, [.text "10.0.1.7".toList])]⟩

example : Readable host := ⟨⟨_, rfl⟩, _, rfl⟩

/-- A run that fails: the old zone is kept. -/
example : (consoleScript config ⟨true, some [netEntry], [host], true⟩ ["10.0.1.0/24:rev".toList] (fun _ => some ['o'])).2 = .ok 1 ∧
    (consoleScript config ⟨true, some [netEntry], [host], true⟩ ["10.0.1.0/24:rev".toList] (fun _ => some ['o'])).1 "zone".toList = some ['o'] ∧
    (consoleScript config ⟨true, some [netEntry], [host], true⟩ ["10.0.1.0/24:rev".toList] (fun _ => some ['o'])).1 "zone.42.tmp".toList = none := by
  decide +kernel

/-- A run that goes well. -/
example : (consoleScript config ⟨true, some [], [host], true⟩ ["10.0.1.0/24:rev".toList] (fun _ => some ['o'])).2 = .ok 0 ∧
    (consoleScript config ⟨true, some [], [host], true⟩ ["10.0.1.0/24:rev".toList] (fun _ => some ['o'])).1 "zone".toList =
      some "$ORIGIN\texample.com.\n\n".toList := by
  decide +kernel

example : readNet netEntry = .ok net ∧ isInNet reader net "10.0.1.7".toList = .ok true ∧ isInNet reader net "10.0.2.7".toList = .ok false ∧
    isInNet reader net "nowhere".toList = .ok false := by
  decide +kernel

/-- An address in a net with a reverse zone, and one in no net. -/
example : parentOf reader "10.0.1.7".toList [(net, some 0)] = .ok (some (net, some 0)) ∧ parentOf reader "10.0.2.7".toList [(net, some 0)] = .ok none ∧
    (gotAddresses config [(net, some 0)] [⟨0, 0, "rev".toList, some "rev.42.tmp".toList⟩] "cn=www".toList "www".toList
      ["10.0.1.7".toList, "10.0.2.7".toList] (fun _ => some [])).1 "rev.42.tmp".toList =
      some ";  cn=www\n7.1.0.10.in-addr.arpa.\tIN PTR\twww.lab.example.com.\n\n".toList ∧
    (gotAddresses config [(net, some 0)] [⟨0, 0, "rev".toList, some "rev.42.tmp".toList⟩] "cn=www".toList "www".toList
      ["10.0.1.7".toList, "10.0.2.7".toList] (fun _ => some [])).1 "zone.42.tmp".toList =
      some ";  cn=www\nwww.lab\tIN A\t10.0.1.7\n\n".toList := by
  decide +kernel

example : Inside (10 * 2 ^ 24 + 256) (10 * 2 ^ 24 + 256 + 7) 24 := ⟨10 * 2 ^ 16 + 1, 7, by decide, by decide, by decide⟩

example : optReverse reader "10.0.1.0/24:a:b".toList = .ok ⟨10 * 2 ^ 24 + 256, 2 ^ 32 - 256, "a:b".toList, none⟩ := by decide +kernel

example : (maraMain reader ⟨true, some [netEntry, netEntry], [host], true⟩) =
    ("#cn=lab\nAlab.%|86400|10.0.1.0\nP0.1.0.10.in-addr.arpa.|86400|lab.%\n".toList, 1) := by
  decide +kernel

example : (maraAddresses reader [net] "cn=www".toList "www".toList ["10.0.1.7".toList, "10.0.2.7".toList]) =
    ("#  cn=www\nAwww.lab.%|86400|10.0.1.7\nP7.1.0.10.in-addr.arpa.|86400|www.lab.%\n".toList, .ok ()) ∧
    maraIn reader net "nowhere".toList = .error .osError := by
  decide +kernel

example : (((config.tmp, config.forward) :: pairs [⟨0, 0, "rev".toList, some "rev.42.tmp".toList⟩]).flatMap fun x => [x.1, x.2]).Nodup := by
  decide +kernel

end Verif.C104
