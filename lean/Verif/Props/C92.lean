import Verif.Lemmas.ProxySystem
import Verif.Lemmas.ExchangeUnique
import Verif.Props.C40
/-
C92  A proxy makes no difference.

A client writes its requests to a `ProxyBase` whose hooks are those of the class; behind it is an `LDAPServer` with a tree.  The
network cuts the three streams of octets as it likes and delivers the pieces in any interleaving; the connection to the server may
be set up at any moment.  The comparison is with the same client connected to the server without the proxy.

`never_other_partial`: at every moment no connection was dropped, and what the client was sent is the beginning of what it would be
sent without the proxy, octet for octet.

`transparent_partial`: once the connection was set up and everything written has arrived, the client was sent exactly that, and
the tree and the bound user are those that the server would be left with.

`arrives_partial`: after any history, one more delivery on each connection is enough for that.

Partial: the requests are those of `Spec.Passable`.  For the others the property fails: critical controls are not passed on
(`critical_ignored`), StartTLS is answered by the proxy (`starttls_differs`), and an answer to an abandon request makes the proxy
drop its connection to the server (`abandon_drops`).
-/
namespace Verif.C92
open Verif.Ldap Verif.Spec Verif.Server Verif.Conn Verif.ProxySession

variable {env : Env} {lucks : Nat → Luck} {st : State} {ms : List Msg} {b : Bytes}

/-- What the run looks like, in the terms of the lemmas. -/
theorem run_whole (hs : Session env lucks st ms) (hw : Wires (ms.map Msg.build) b) (options : Bool) (es : List Event) :
    ∃ S ans lc n q r, Facts env lucks ms S ans ∧ bytesOf lc = b ∧ Decodes lc ∧ lc.length = ms.length ∧
      (∀ (k : Nat) (m : Msg), ms[k]? = some m → ∃ w, lc[k]? = some (w, dm m)) ∧
      Whole (ms := ms) (S := S) (ans := ans) lc (wentUp es) n q r ((start options st).run env lucks b es) ∧
      ∀ segments : List Bytes, segments.flatten = b →
        direct env lucks st segments = ⟨S ms.length, (answers ans ms.length).map fun x => (.int (idOf ms x.1), x.2.build), ms.length⟩ := by
  obtain ⟨S, ans, F, h0, hafter⟩ := facts hs hw
  obtain ⟨lc, hlc, hb, hlen, hget⟩ := arriving ms (session_wf hs hw) hw
  have hstart := whole_start (ms := ms) (S := S) (ans := ans) options hlc
  rw [h0] at hstart
  obtain ⟨n, q, r, h⟩ := whole_run F hlc hlen hget hstart es
  rw [Bool.false_or, hb] at h
  refine ⟨S, ans, lc, n, q, r, F, hb, hlc, hlen, hget, h, fun segments hseg => ?_⟩
  have := direct_after hs hw ms.length (b' := b) (by rwa [List.take_length]) hseg
  rw [this, hafter ms.length (Nat.le_refl _)]
  rfl

/-- Never anything else. -/
theorem never_other_partial (hs : Session env lucks st ms) (hw : Wires (ms.map Msg.build) b) (options : Bool) (es : List Event)
    {segments : List Bytes} (hseg : segments.flatten = b) :
    let Y := (start options st).run env lucks b es
    (Y.clientDead = false ∧ Y.serverDead = false ∧ Y.server.dead = false) ∧
      Y.toClient <+: octets (direct env lucks st segments).sent := by
  obtain ⟨S, ans, lc, n, q, r, F, hb, hlc, hlen, hget, h, hd⟩ := run_whole hs hw options es
  refine ⟨⟨h.clientAlive, h.serverAlive, h.alive⟩, ?_⟩
  rw [hd segments hseg, whole_toClient h]
  refine ⟨octets (((answers ans ms.length).drop r).map fun x => (.int (idOf ms x.1), x.2.build)), ?_⟩
  rw [← octets_append, ← List.map_append, List.take_append_drop]

theorem done (hs : Session env lucks st ms) (hw : Wires (ms.map Msg.build) b) (options : Bool) (es : List Event)
    (hup : Event.up ∈ es) (hh : ((start options st).run env lucks b es).heard = b.length)
    (hf : ((start options st).run env lucks b es).forwarded = ((start options st).run env lucks b es).toServer.length)
    (hb : ((start options st).run env lucks b es).returned = ((start options st).run env lucks b es).toProxy.length)
    {segments : List Bytes} (hseg : segments.flatten = b) :
    ((start options st).run env lucks b es).toClient = octets (direct env lucks st segments).sent ∧
      ((start options st).run env lucks b es).server.st.state = (direct env lucks st segments).state := by
  obtain ⟨S, ans, lc, n, q, r, F, hlb, hlc, hlen, hget, h, hd⟩ := run_whole hs hw options es
  rw [(wentUp_iff es).mpr hup] at h
  obtain ⟨hq, hr⟩ := whole_done F hlc hlen hget h (by rw [hh, hlb]) hf hb
  rw [hd segments hseg, whole_toClient h, h.server, hq, hr, List.take_length]
  exact ⟨rfl, rfl⟩

/-- Once everything has arrived, the proxy has made no difference. -/
theorem transparent_partial (hs : Session env lucks st ms) (hw : Wires (ms.map Msg.build) b) (options : Bool) (es : List Event)
    (hup : Event.up ∈ es) {segments : List Bytes} (hseg : segments.flatten = b) :
    let Y := (start options st).run env lucks b es
    Y.heard = b.length → Y.forwarded = Y.toServer.length → Y.returned = Y.toProxy.length →
      Y.toClient = octets (direct env lucks st segments).sent ∧ Y.server.st.state = (direct env lucks st segments).state :=
  fun hh hf hb => done hs hw options es hup hh hf hb hseg

/-- And everything arrives. -/
theorem arrives_partial (hs : Session env lucks st ms) (hw : Wires (ms.map Msg.build) b) (options : Bool) (es : List Event)
    {segments : List Bytes} (hseg : segments.flatten = b) :
    ∃ N, ∀ k, N ≤ k →
      let Y := (start options st).run env lucks b (es ++ [.client k, .up, .forward k, .back k])
      Y.toClient = octets (direct env lucks st segments).sent ∧ Y.server.st.state = (direct env lucks st segments).state := by
  obtain ⟨S, ans, lc, n, q, r, F, hlb, hlc, hlen, hget, h, -⟩ := run_whole hs hw options es
  refine ⟨b.length + (bytesOf (fwd ms ms.length)).length + (bytesOf (bck ans ms.length)).length, fun k hk => ?_⟩
  have hrun : (start options st).run env lucks b (es ++ [.client k, .up, .forward k, .back k]) =
      ((start options st).run env lucks b es).run env lucks (bytesOf lc) [.client k, .up, .forward k, .back k] := by
    rw [hlb]
    simp only [Sys.run, List.foldl_append]
  obtain ⟨n', q', r', -, hh, hf, hb⟩ := whole_arrives F hlc hlen hget h (k := k) (by rw [hlb]; omega) (by omega) (by omega)
  rw [← hrun] at hh hf hb
  exact done hs hw options _ (by simp) (by rw [hh, hlb]) hf hb hseg

/-! ### Examples -/

/-- The octets of messages. -/
def wiresOf : List Obj → Option Bytes
  | [] => some []
  | m :: ms => match toWire m, wiresOf ms with
    | .ok w, some b => some (w ++ b)
    | _, _ => none

theorem wires_iff {ms : List Obj} {b : Bytes} : Wires ms b ↔ wiresOf ms = some b := by
  constructor
  · intro h
    induction h with
    | nil => rfl
    | cons hw _ ih => simp only [wiresOf, hw, ih]
  · intro h
    induction ms generalizing b with
    | nil => cases h; exact .nil
    | cons m ms ih =>
      unfold wiresOf at h
      split at h
      · rename_i w b' hw hb'
        cases h
        exact .cons hw (ih hb')
      · cases h

/-- Adding an entry, finding it, deleting another with a control that nobody knows, and goodbye. -/
def session : List Msg :=
  [⟨7, .add (ascii "cn=d,dc=a") [(ascii "cn", [ascii "d"]), (ascii "sn", [ascii "y"])], none⟩,
   ⟨7, .search (ascii "dc=a") 2 0 0 0 false (.equal (ascii "sn") (ascii "Y")) [], none⟩,
   ⟨2, .delete (ascii "cn=c,cn=b,dc=a"), some [⟨[0x31], some false, none⟩]⟩,
   ⟨1, .unbind, none⟩]

def states : List State :=
  (List.range 4).map fun k => match wiresOf ((session.take k).map Msg.build) with
    | some b => (direct C40.env (fun _ => C40.luck) C40.st [b]).state
    | none => C40.st

/-- Nothing in the trees is large. -/
def calm (s : State) : Bool :=
  s.heap.all fun n => (Utf8.encode n.entry.dn.text).length < 1000 && (n.entry.attrs.length < 1000 &&
    n.entry.attrs.all fun p => p.1.toBytes.length < 1000 && (p.2.length < 1000 && p.2.all fun v => v.toBytes.length < 1000))

theorem calm_modest {s : State} (h : calm s = true) :
    (∀ n ∈ s.heap, Fit (Utf8.encode n.entry.dn.text)) ∧ ∀ n ∈ s.heap, Modest n.entry [] := by
  unfold calm at h
  simp only [List.all_eq_true, Bool.and_eq_true, decide_eq_true_eq] at h
  refine ⟨fun n hn => ?_, fun n hn => ⟨?_, ?_, ?_, by simp⟩⟩
  · have := (h n hn).1; unfold Fit; omega
  · have := (h n hn).1; unfold Fit; omega
  · have := (h n hn).2.1; omega
  · intro k vs hk
    have := (h n hn).2.2 _ hk
    dsimp only at this
    refine ⟨by unfold Fit; omega, by omega, fun v hv => ?_⟩
    have := this.2.2 v hv
    unfold Fit; omega

theorem states_calm : (states.all calm) = true := by decide +kernel

/-- The session meets the hypotheses. -/
theorem session_ok : Session C40.env (fun _ => C40.luck) C40.st session := by
  refine ⟨by decide, ?_, ?_⟩
  · intro k m hm hu
    have hk : k < 4 := (List.getElem?_eq_some_iff.mp hm).1
    match k, hk with
    | 0, _ => cases hm; cases hu
    | 1, _ => cases hm; cases hu
    | 2, _ => cases hm; cases hu
    | 3, _ => rfl
  · intro k m b hm hb
    have hk : k < 4 := (List.getElem?_eq_some_iff.mp hm).1
    have hst : calm (direct C40.env (fun _ => C40.luck) C40.st [b]).state = true := by
      refine List.all_eq_true.mp states_calm _ ?_
      refine List.mem_map.mpr ⟨k, List.mem_range.mpr hk, ?_⟩
      rw [wires_iff.mp hb]
    generalize (direct C40.env (fun _ => C40.luck) C40.st [b]).state = s at hst ⊢
    obtain ⟨h1, h2⟩ := calm_modest hst
    clear hb
    match k, hk with
    | 0, _ =>
      cases hm
      exact ⟨by decide, trivial, by decide +kernel, .inl .add, (by intro v h; cases h), (by intro cs h; cases h),
        ⟨fun e => by simp [Fit, C40.luck], h1, (by intro cs h; cases h), (by intro t n v h; cases h), (by intro t v d a h; cases h)⟩, h2⟩
    | 1, _ =>
      cases hm
      exact ⟨by decide, trivial, by decide +kernel, .inl .search, (by intro v h; cases h), (by intro cs h; cases h),
        ⟨fun e => by simp [Fit, C40.luck], h1, (by intro cs h; cases h), (by intro t n v h; cases h), (by intro t v d a h; cases h)⟩, h2⟩
    | 2, _ =>
      cases hm
      exact ⟨by decide, trivial, by decide +kernel, .inl .delete, (by intro v h; cases h),
        (by intro cs h c hc; cases h; simp only [List.mem_cons, List.not_mem_nil, or_false] at hc; subst hc; simp),
        ⟨fun e => by simp [Fit, C40.luck], h1, (by intro cs h; cases h), (by intro t n v h; cases h), (by intro t v d a h; cases h)⟩, h2⟩
    | 3, _ =>
      cases hm
      exact ⟨by decide, trivial, by decide +kernel, .inr rfl, (by intro v h; cases h), (by intro cs h; cases h),
        ⟨fun e => by simp [Fit, C40.luck], h1, (by intro cs h; cases h), (by intro t n v h; cases h), (by intro t v d a h; cases h)⟩, h2⟩

/-- The hypotheses hold for that session; the client is to be sent four messages. -/
example : ∃ b, Wires (session.map Msg.build) b ∧ Session C40.env (fun _ => C40.luck) C40.st session ∧
    (direct C40.env (fun _ => C40.luck) C40.st [b]).sent.length = 4 := by
  have h : (wiresOf (session.map Msg.build)).map (fun b => (direct C40.env (fun _ => C40.luck) C40.st [b]).sent.length) = some 4 := by
    decide +kernel
  cases hb : wiresOf (session.map Msg.build) with
  | none => rw [hb] at h; cases h
  | some b => exact ⟨b, wires_iff.mpr hb, session_ok, by rw [hb] at h; simpa using h⟩

/-! ### Where a proxy does make a difference -/

theorem some_of {m : List Obj} {p : Bytes → Bool} (h : (wiresOf m).map p = some true) : ∃ b, Wires m b ∧ p b = true := by
  cases hb : wiresOf m with
  | none => rw [hb] at h; cases h
  | some b => exact ⟨b, wires_iff.mpr hb, by rw [hb] at h; simpa using h⟩

/-- Everything is delivered at once. -/
def delivered (b : Bytes) : Sys :=
  (start true C40.st).run C40.env (fun _ => C40.luck) b [.client 1000, .up, .forward 1000, .back 1000]

/-- An entry is to be deleted with a critical control.  The server refuses; through a proxy it is not told of the control, and
deletes (proxybase.py:113-145 hands the controls to the hook and drops those that come back). -/
theorem critical_ignored : ∃ b, Wires [(⟨7, .delete (ascii "cn=c,cn=b,dc=a"), some [⟨[0x31], some true, none⟩]⟩ : Msg).build] b ∧
    (direct C40.env (fun _ => C40.luck) C40.st [b]).state = C40.st ∧ (delivered b).server.st.state ≠ C40.st ∧
    (delivered b).toClient ≠ octets (direct C40.env (fun _ => C40.luck) C40.st [b]).sent := by
  obtain ⟨b, hb, h⟩ := some_of (m := [(⟨7, .delete (ascii "cn=c,cn=b,dc=a"), some [⟨[0x31], some true, none⟩]⟩ : Msg).build])
    (p := fun b => decide ((direct C40.env (fun _ => C40.luck) C40.st [b]).state = C40.st) && (decide ((delivered b).server.st.state ≠ C40.st) &&
      decide ((delivered b).toClient ≠ octets (direct C40.env (fun _ => C40.luck) C40.st [b]).sent))) (by decide +kernel)
  simp only [Bool.and_eq_true, decide_eq_true_eq] at h
  exact ⟨b, hb, h⟩

/-- An abandon request, and a request to delete an entry.  The server knows no abandon requests and says so.  The proxy expects
no answer to what it passed on; the answer raises a KeyError and costs it the connection to the server.  The entry is deleted, but
the client is not told. -/
theorem abandon_drops : ∃ b, Wires [(⟨7, .abandon 3, none⟩ : Msg).build, (⟨8, .delete (ascii "cn=c,cn=b,dc=a"), none⟩ : Msg).build] b ∧
    (direct C40.env (fun _ => C40.luck) C40.st [b]).sent.map Prod.fst = [.int 7, .int 8] ∧
    (delivered b).serverDead = true ∧ (delivered b).toClient = [] ∧
    (delivered b).server.st.state = (direct C40.env (fun _ => C40.luck) C40.st [b]).state := by
  obtain ⟨b, hb, h⟩ := some_of (m := [(⟨7, .abandon 3, none⟩ : Msg).build, (⟨8, .delete (ascii "cn=c,cn=b,dc=a"), none⟩ : Msg).build])
    (p := fun b => decide ((direct C40.env (fun _ => C40.luck) C40.st [b]).sent.map Prod.fst = [.int 7, .int 8]) && (decide ((delivered b).serverDead = true) &&
      (decide ((delivered b).toClient = []) &&
        decide ((delivered b).server.st.state = (direct C40.env (fun _ => C40.luck) C40.st [b]).state)))) (by decide +kernel)
  simp only [Bool.and_eq_true, decide_eq_true_eq] at h
  exact ⟨b, hb, h⟩

/-- StartTLS is answered by the proxy: with success, where the server knows no such operation; the server hears nothing of it. -/
theorem starttls_differs : ∃ b, Wires [(⟨7, .extRequest Client.startTLSOid none, none⟩ : Msg).build] b ∧
    (delivered b).toServer = [] ∧ (delivered b).toClient ≠ [] ∧
    (delivered b).toClient ≠ octets (direct C40.env (fun _ => C40.luck) C40.st [b]).sent := by
  obtain ⟨b, hb, h⟩ := some_of (m := [(⟨7, .extRequest Client.startTLSOid none, none⟩ : Msg).build])
    (p := fun b => decide ((delivered b).toServer = []) && (decide ((delivered b).toClient ≠ []) &&
      decide ((delivered b).toClient ≠ octets (direct C40.env (fun _ => C40.luck) C40.st [b]).sent))) (by decide +kernel)
  simp only [Bool.and_eq_true, decide_eq_true_eq] at h
  exact ⟨b, hb, h⟩

end Verif.C92
