import Verif.Model.Checker
import Verif.Model.Dns
import Verif.Model.PdnsPipe
/-
Model of /repo/ldaptor/_scripts/ldap2dnszones.py and /repo/ldaptor/_scripts/ldap2maradns.py: write the nets and hosts of a
directory as zone files.

Simplifications: a file system is a map from paths to the text of files; opening a file for writing never fails, and what is
printed to a file is in it at once.  `rename` and `unlink` fail for a path without a file.  The filters are left out: a search
gives entries, or fails.  A host for which the callback raises ends the search with a failure (`Model/ClientSearch`).  What is
printed to standard error is left out.  `os.getpid()`, `int` and `inet_aton` of a text are parameters.
-/
namespace Verif.Zones
open Verif.PdnsPipe

/-- `int(s)`, where `none` is a ValueError, and `socket.inet_aton(s)`. -/
structure Reader where
  int : Str → Option Int
  inet : Str → Py (UInt8 × UInt8 × UInt8 × UInt8)

/-- dns.py:21-27 `aton` of a text. -/
def aton (R : Reader) (s : Str) : Py Nat :=
  match R.int s with
  | some i => .ok (Dns.aton (.num i))
  | none =>
    match R.inet s with
    | .error e => .error e
    | .ok (a, b, c, d) => .ok (Dns.aton (.quad a b c d))

/-- dns.py:30-33 `ntoa` of any integer; `struct.pack("!I", n)` raises struct.error for negative ones. -/
def ntoa : Int → Py Str
  | .ofNat n => (Dns.ntoa n).map fun q => joinWith ['.'] (q.map Dns.octetText)
  | .negSucc _ => .error .other

/-- `~n` in Python. -/
def invert (n : Nat) : Int := .negSucc n

/-- `a | b` in Python for `a ≥ 0`, where a negative `b` is `~m`: the bits of the result are off where those of `m` are on and
those of `a` are off. -/
def bitOr (a : Nat) : Int → Int
  | .ofNat b => .ofNat (a ||| b)
  | .negSucc m => .negSucc (m ^^^ (m &&& a))

/-- An entry that was found: its name as text and its attributes. -/
structure Found where
  dn : Str
  attributes : List (Str × List PyStr)
  deriving DecidableEq, Repr

/-- `e[attrName]` -/
def values (e : Found) (name : Str) : Py (List PyStr) :=
  match e.attributes.lookup name with
  | none => .error .keyError
  | some vs => .ok vs

/-- ldap2dnszones.py:129-138, ldap2maradns.py:104-113 `only`, and `str()` of what it returns. -/
def only (e : Found) (name : Str) : Py Str :=
  match values e name with
  | .error x => .error x
  | .ok [v] => .ok (Checker.formatted v)
  | .ok _ => .error .assertionError

/-- ldap2dnszones.py:62-69, ldap2maradns.py:56-61 -/
structure Net where
  dn : Str
  name : Str
  address : Str
  mask : Str
  deriving DecidableEq, Repr

/-- ldap2dnszones.py:163-168, ldap2maradns.py:138-143: the net that an entry describes. -/
def readNet (e : Found) : Py Net := do
  let name ← only e "cn".toList
  let address ← only e "ipNetworkNumber".toList
  let mask ← only e "ipNetmaskNumber".toList
  return ⟨e.dn, name, address, mask⟩

/-- ldap2dnszones.py:9-10 `formatIPAddress` -/
def formatIPAddress (name ip : Str) : Str := name ++ "\tIN A\t".toList ++ ip ++ ['\n']

/-- ldap2dnszones.py:13-17 `formatPTR` -/
def formatPTR (name ip : Str) : Str :=
  joinWith ['.'] ((splitAll '.' ip).reverse ++ ["in-addr.arpa.".toList]) ++ "\tIN PTR\t".toList ++ name ++ ".\n".toList

/-- ldap2dnszones.py:71-82 `Net.isInNet` -/
def isInNet (R : Reader) (n : Net) (ipAddress : Str) : Py Bool :=
  let read : Py Bool := do
    let net ← aton R n.address
    let mask ← aton R n.mask
    let ip ← aton R ipAddress
    return ip &&& mask == net
  match read with
  | .error .osError => .ok false
  | r => r

/-- ldap2dnszones.py:84-95 `Net.getForward` -/
def getForward (R : Reader) (n : Net) : Py Str := do
  let ip ← aton R n.address
  let mask ← aton R n.mask
  let ipmask ← ntoa (.ofNat mask)
  let broadcast ← ntoa (bitOr ip (invert mask))
  return "; ".toList ++ n.dn ++ ['\n'] ++ formatIPAddress n.name n.address ++ formatIPAddress ("netmask.".toList ++ n.name) ipmask
    ++ formatIPAddress ("broadcast.".toList ++ n.name) broadcast

/-- ldap2dnszones.py:97-106 `Net.getReverse` -/
def getReverse (R : Reader) (n : Net) (domain : Str) : Py Str := do
  let ip ← aton R n.address
  let mask ← aton R n.mask
  let broadcast ← ntoa (bitOr ip (invert mask))
  return "; ".toList ++ n.dn ++ ['\n'] ++ formatPTR (n.name ++ ['.'] ++ domain) n.address
    ++ formatPTR ("broadcast.".toList ++ n.name ++ ['.'] ++ domain) broadcast

/-- The files: their text by path. -/
abbrev Files := Str → Option Str

/-- The file at one path is changed. -/
def Files.set (fs : Files) (path : Str) (text : Option Str) : Files := fun p => if p = path then text else fs p

/-- `print(text, file=f)` -/
def Files.print (fs : Files) (path text : Str) : Files := fs.set path ((fs path).map fun t => t ++ text ++ ['\n'])

/-- `os.rename` -/
def Files.rename (fs : Files) (old new : Str) : Files × Py Unit :=
  match fs old with
  | none => (fs, .error .osError)
  | some t => ((fs.set old none).set new (some t), .ok ())

/-- `os.unlink` -/
def Files.unlink (fs : Files) (path : Str) : Files × Py Unit :=
  match fs path with
  | none => (fs, .error .osError)
  | some _ => (fs.set path none, .ok ())

/-- One `--reverse` option, ldap2dnszones.py:325-331; `temp` is `data["tempname"]`, which is there together with
`data["file"]` until `filesOk` begins. -/
structure Reverse where
  address : Nat
  netmask : Nat
  filename : Str
  temp : Option Str
  deriving DecidableEq, Repr

/-- ldap2dnszones.py:175, 276: `"%s.%d.tmp" % (name, os.getpid())` -/
def tempName (pid : Nat) (name : Str) : Str := name ++ ['.'] ++ Decimal.ofInt pid ++ ".tmp".toList

/-- What the whole run works with: the readers, `os.getpid()` and the arguments of `main`. -/
structure Config where
  reader : Reader
  pid : Nat
  domain : Str
  forward : Str

/-- `forwardTmp`, line 276 -/
def Config.tmp (c : Config) : Str := tempName c.pid c.forward

/-- ldap2dnszones.py:171-178: a net and the `--reverse` options; the position in the list of the last one whose file took the
net is `net.reverseZone`. -/
def writeReverse (c : Config) (n : Net) : List Reverse → Nat → Files → Option Nat → Files × List Reverse × Py (Option Nat)
  | [], _, fs, zone => (fs, [], .ok zone)
  | d :: ds, i, fs, zone =>
    match aton c.reader n.address with
    | .error e => (fs, d :: ds, .error e)
    | .ok ip =>
      if ip &&& d.netmask = d.address then
        let temp := d.temp.getD (tempName c.pid d.filename)
        let fs := if d.temp = none then fs.set temp (some []) else fs
        let d := { d with temp := some temp }
        match getReverse c.reader n c.domain with
        | .error e => (fs, d :: ds, .error e)
        | .ok text =>
          let r := writeReverse c n ds (i + 1) (fs.print temp text) (some i)
          (r.1, d :: r.2.1, r.2.2)
      else
        let r := writeReverse c n ds (i + 1) fs zone
        (r.1, d :: r.2.1, r.2.2)

/-- ldap2dnszones.py:160-180 `_cbGotNets`: the nets, with their reverse zones. -/
def gotNets (c : Config) : List Found → Files → List Reverse → Files × List Reverse × Py (List (Net × Option Nat))
  | [], fs, rev => (fs, rev, .ok [])
  | e :: es, fs, rev =>
    match readNet e with
    | .error x => (fs, rev, .error x)
    | .ok n =>
      match getForward c.reader n with
      | .error x => (fs, rev, .error x)
      | .ok text =>
        match writeReverse c n rev 0 (fs.print c.tmp text) none with
        | (fs, rev, .error x) => (fs, rev, .error x)
        | (fs, rev, .ok zone) =>
          match gotNets c es fs rev with
          | (fs, rev, .error x) => (fs, rev, .error x)
          | (fs, rev, .ok ns) => (fs, rev, .ok ((n, zone) :: ns))

/-- ldap2dnszones.py:199-203: the first net with the address. -/
def parentOf (R : Reader) (ip : Str) : List (Net × Option Nat) → Py (Option (Net × Option Nat))
  | [] => .ok none
  | p :: ps =>
    match isInNet R p.1 ip with
    | .error e => .error e
    | .ok true => .ok (some p)
    | .ok false => parentOf R ip ps

/-- ldap2dnszones.py:206-213, with `getForward` and `getReverse` of lines 25-33: an address of a host in a net. -/
def writeAddress (c : Config) (rev : List Reverse) (dn name ip : Str) (n : Net) (zone : Option Nat) (fs : Files) : Files :=
  let fs := fs.print c.tmp (";  ".toList ++ dn ++ ['\n'] ++ formatIPAddress (name ++ ['.'] ++ n.name) ip)
  match zone.bind (fun i => rev[i]?.bind fun d => d.temp) with
  | none => fs
  | some temp => fs.print temp (";  ".toList ++ dn ++ ['\n'] ++ formatPTR (name ++ ['.'] ++ n.name ++ ['.'] ++ c.domain) ip)

/-- ldap2dnszones.py:198-215: the addresses of a host. -/
def gotAddresses (c : Config) (nets : List (Net × Option Nat)) (rev : List Reverse) (dn name : Str) : List Str → Files → Files × Py Unit
  | [], fs => (fs, .ok ())
  | ip :: ips, fs =>
    match parentOf c.reader ip nets with
    | .error e => (fs, .error e)
    | .ok none => gotAddresses c nets rev dn name ips fs
    | .ok (some (n, zone)) => gotAddresses c nets rev dn name ips (writeAddress c rev dn name ip n zone fs)

/-- ldap2dnszones.py:194-215 `_cbGotHost` -/
def gotHost (c : Config) (nets : List (Net × Option Nat)) (rev : List Reverse) (e : Found) (fs : Files) : Files × Py Unit :=
  match only e "cn".toList with
  | .error x => (fs, .error x)
  | .ok name =>
    match values e "ipHostNumber".toList with
    | .error x => (fs, .error x)
    | .ok ips => gotAddresses c nets rev e.dn name (ips.map Checker.formatted) fs

/-- ldap2dnszones.py:217-220: the search for hosts, which goes well if the directory says so and no host raises. -/
def gotHosts (c : Config) (nets : List (Net × Option Nat)) (rev : List Reverse) : List Found → Files → Files × Py Unit
  | [], fs => (fs, .ok ())
  | e :: es, fs =>
    match gotHost c nets rev e fs with
    | (fs, .error x) => (fs, .error x)
    | (fs, .ok ()) => gotHosts c nets rev es fs

/-- What the directory does: whether it can be reached, the nets it gives (`none`: the search fails), the hosts it gives, and
whether the search for them ends well. -/
structure Directory where
  connects : Bool
  nets : Option (List Found)
  hosts : List Found
  hostsEnd : Bool

/-- ldap2dnszones.py:223-233 `cbConnected`, after the connection of line 283. -/
def connected (c : Config) (d : Directory) (fs : Files) (rev : List Reverse) : Files × List Reverse × Py Unit :=
  if !d.connects then (fs, rev, .error .other)
  else
    match d.nets with
    | none => (fs, rev, .error .other)
    | some es =>
      match gotNets c es fs rev with
      | (fs, rev, .error x) => (fs, rev, .error x)
      | (fs, rev, .ok nets) =>
        match gotHosts c nets rev d.hosts fs with
        | (fs, .error x) => (fs, rev, .error x)
        | (fs, .ok ()) => (fs, rev, if d.hostsEnd then .ok () else .error .other)

/-- ldap2dnszones.py:239-245: the loop of `filesOk`. -/
def renameAll : List Reverse → Files → Files × Py Unit
  | [], fs => (fs, .ok ())
  | d :: ds, fs =>
    match d.temp with
    | none => renameAll ds fs
    | some temp =>
      match fs.rename temp d.filename with
      | (fs, .error e) => (fs, .error e)
      | (fs, .ok ()) => renameAll ds fs

/-- ldap2dnszones.py:236-246 `filesOk` -/
def filesOk (c : Config) (rev : List Reverse) (fs : Files) : Files × Py Unit :=
  match fs.rename c.tmp c.forward with
  | (fs, .error e) => (fs, .error e)
  | (fs, .ok ()) => renameAll rev fs

/-- ldap2dnszones.py:252-256: the loop of `filesAbort`. -/
def unlinkAll : List Reverse → Files → Files × Py Unit
  | [], fs => (fs, .ok ())
  | d :: ds, fs =>
    match d.temp with
    | none => unlinkAll ds fs
    | some temp =>
      match fs.unlink temp with
      | (fs, .error e) => (fs, .error e)
      | (fs, .ok ()) => unlinkAll ds fs

/-- ldap2dnszones.py:249-257 `filesAbort`; it gives the failure on, or another one. -/
def filesAbort (c : Config) (rev : List Reverse) (fs : Files) : Files :=
  match fs.unlink c.tmp with
  | (fs, .error _) => fs
  | (fs, .ok ()) => (unlinkAll rev fs).1

/-- ldap2dnszones.py:276-295: the rest of `main`: the files and the exit status. -/
def main (c : Config) (d : Directory) (rev : List Reverse) (fs : Files) : Files × Nat :=
  let fs := fs.set c.tmp (some [])
  let fs := fs.print c.tmp ("$ORIGIN\t".toList ++ c.domain ++ ['.'])
  let fs := fs.print c.tmp []
  match connected c d fs rev with
  | (fs, rev, .error _) => (filesAbort c rev fs, 1)
  | (fs, rev, .ok ()) =>
    match filesOk c rev fs with
    | (fs, .error _) => (fs, 1)
    | (fs, .ok ()) => (fs, 0)

/-- ldap2dnszones.py:305-331 `opt_reverse`; `other` is a UsageError.  Lines 315-323 let exceptions other than OSError through. -/
def optReverse (R : Reader) (text : Str) : Py Reverse :=
  match split1 ':' text with
  | none => .error .other
  | some (net, filename) =>
    match split1 '/' net with
    | none => .error .other
    | some (address, netmask) =>
      match aton R address with
      | .error .osError => .error .other
      | .error e => .error e
      | .ok a =>
        match aton R netmask with
        | .error .osError => .error .other
        | .error e => .error e
        | .ok m => .ok ⟨a, m, filename, none⟩

/-- Reading the `--reverse` options one after the other. -/
def optReverses (R : Reader) : List Str → Py (List Reverse)
  | [] => .ok []
  | t :: ts => do
    let r ← optReverse R t
    let rs ← optReverses R ts
    return r :: rs

/-- ldap2dnszones.py:339-351 `console_script`: exit status 1 after a UsageError; `opts["reverse"]` raises KeyError if there was no
`--reverse` option. -/
def consoleScript (c : Config) (d : Directory) (options : List Str) (fs : Files) : Files × Py Nat :=
  match optReverses c.reader options with
  | .error .other => (fs, .ok 1)
  | .error e => (fs, .error e)
  | .ok [] => (fs, .error .keyError)
  | .ok rev => ((main c d rev fs).1, .ok (main c d rev fs).2)

/-- ldap2maradns.py:8-9 `printIPAddress` -/
def maraAddress (name ip : Str) : Str := 'A' :: name ++ ".%|86400|".toList ++ ip ++ ['\n']

/-- ldap2maradns.py:12-16 `printPTR` -/
def maraPTR (name ip : Str) : Str :=
  'P' :: joinWith ['.'] ((splitAll '.' ip).reverse ++ ["in-addr.arpa.".toList]) ++ "|86400|".toList ++ name ++ ".%\n".toList

/-- ldap2maradns.py:71-81 `Net.printZone`: what it prints, and how it ends. -/
def maraNet (R : Reader) (n : Net) : Str × Py Unit :=
  let start := '#' :: n.dn ++ ['\n'] ++ maraAddress n.name n.address ++ maraPTR n.name n.address
  let rest : Py Str := do
    let ip ← aton R n.address
    let mask ← aton R n.mask
    let ipmask ← ntoa (.ofNat mask)
    let broadcast ← ntoa (bitOr ip (invert mask))
    return maraAddress ("netmask.".toList ++ n.name) ipmask ++ maraAddress ("broadcast.".toList ++ n.name) broadcast
      ++ maraPTR ("broadcast.".toList ++ n.name) broadcast
  match rest with
  | .error e => (start, .error e)
  | .ok t => (start ++ t, .ok ())

/-- ldap2maradns.py:63-69 `Net.isInNet`, which catches nothing. -/
def maraIn (R : Reader) (n : Net) (ipAddress : Str) : Py Bool := do
  let net ← aton R n.address
  let mask ← aton R n.mask
  let ip ← aton R ipAddress
  return ip &&& mask == net

/-- ldap2maradns.py:135-146 `_cbGotNets` -/
def maraNets (R : Reader) : List Found → Str × Py (List Net)
  | [] => ([], .ok [])
  | e :: es =>
    match readNet e with
    | .error x => ([], .error x)
    | .ok n =>
      match maraNet R n with
      | (t, .error x) => (t, .error x)
      | (t, .ok ()) =>
        match maraNets R es with
        | (u, .error x) => (t ++ u, .error x)
        | (u, .ok ns) => (t ++ u, .ok (n :: ns))

/-- ldap2maradns.py:165-169: the first net with the address. -/
def maraParent (R : Reader) (ip : Str) : List Net → Py (Option Net)
  | [] => .ok none
  | n :: ns =>
    match maraIn R n ip with
    | .error e => .error e
    | .ok true => .ok (some n)
    | .ok false => maraParent R ip ns

/-- ldap2maradns.py:164-174: the addresses of a host; lines 24-27 are `HostIPAddress.printZone`. -/
def maraAddresses (R : Reader) (nets : List Net) (dn name : Str) : List Str → Str × Py Unit
  | [] => ([], .ok ())
  | ip :: ips =>
    match maraParent R ip nets with
    | .error e => ([], .error e)
    | .ok parent =>
      let t := match parent with
        | none => []
        | some n => "#  ".toList ++ dn ++ ['\n'] ++ maraAddress (name ++ ['.'] ++ n.name) ip ++ maraPTR (name ++ ['.'] ++ n.name) ip
      ((t ++ (maraAddresses R nets dn name ips).1), (maraAddresses R nets dn name ips).2)

/-- ldap2maradns.py:160-179 `_cbGotHost` for one host after the other. -/
def maraHosts (R : Reader) (nets : List Net) : List Found → Str × Py Unit
  | [] => ([], .ok ())
  | e :: es =>
    match only e "cn".toList, values e "ipHostNumber".toList with
    | .error x, _ => ([], .error x)
    | .ok _, .error x => ([], .error x)
    | .ok name, .ok ips =>
      match maraAddresses R nets e.dn name (ips.map Checker.formatted) with
      | (t, .error x) => (t, .error x)
      | (t, .ok ()) => (t ++ (maraHosts R nets es).1, (maraHosts R nets es).2)

/-- ldap2maradns.py:182-218: what `main` prints, and the exit status. -/
def maraMain (R : Reader) (d : Directory) : Str × Nat :=
  if !d.connects then ([], 1)
  else
    match d.nets with
    | none => ([], 1)
    | some es =>
      match maraNets R es with
      | (t, .error _) => (t, 1)
      | (t, .ok nets) =>
        match maraHosts R nets d.hosts with
        | (u, .error _) => (t ++ u, 1)
        | (u, .ok ()) => (t ++ u, if d.hostsEnd then 0 else 1)

end Verif.Zones
