import Verif.Model.Zones
/-
Model of /repo/ldaptor/_scripts/ldap2dhcpconf.py: write the nets and hosts of a directory as a configuration for a DHCP server.

Objects are positions: a host is its position in the list of hosts, an address of a host its position in the list of that host's
addresses, a group its position in the list of groups, a net its position in the list of all nets.  The sets of the program are
lists; the order in which Python goes through a set is a parameter (`Order`).

Simplifications: the filters are left out, as is what goes to standard error.  `host.group` and `group.hosts` are changed together
(lines 98-100), and only `host.group` is kept.  `int` and `inet_aton` are parameters.
-/
namespace Verif.Dhcp
open Verif.Zones (Found)

/-- `int` of text and of octets, where `none` is a ValueError, and `socket.inet_aton` of text. -/
structure Reader where
  int : Str → Option Int
  intOctets : Bytes → Option Int
  inet : Str → Py (UInt8 × UInt8 × UInt8 × UInt8)

/-- ldap2dhcpconf.py:24-44 `my_aton`; `inet_aton` of octets raises TypeError. -/
def aton (R : Reader) : PyStr → Py Nat
  | .text s => Zones.aton ⟨R.int, R.inet⟩ s
  | .bytes b =>
    match R.intOctets b with
    | some i => .ok (Dns.aton (.num i))
    | none => .error .typeError

/-- ldap2dhcpconf.py:47-50 `my_ntoa` of what `my_aton` gives. -/
def ntoa (n : Nat) : Py Str := Zones.ntoa (.ofNat n)

/-- ldap2dhcpconf.py:121-129; `bootFile` is not made text. -/
structure Host where
  dn : Str
  name : Str
  ips : List Str
  macs : List Str
  bootFile : Option PyStr
  deriving DecidableEq, Repr

/-- ldap2dhcpconf.py:144-163; the sets of values are lists in the order in which they are gone through. -/
structure Net where
  dn : Str
  name : PyStr
  address : PyStr
  mask : PyStr
  routers : List PyStr
  ranges : List PyStr
  wins : List PyStr
  dns : List PyStr
  deriving DecidableEq, Repr

/-- ldap2dhcpconf.py:82-86 -/
structure Group where
  dn : Str
  bootFile : Option PyStr
  deriving DecidableEq, Repr

/-- ldap2dhcpconf.py:319-334 `only` with a default of `None`; `other` is RuntimeError. -/
def onlyOr (e : Found) (name : Str) : Py (Option PyStr) :=
  match e.attributes.lookup name with
  | none => .ok none
  | some [v] => .ok (some v)
  | some _ => .error .other

/-- ldap2dhcpconf.py:319-334 `only` without a default. -/
def only (e : Found) (name : Str) : Py PyStr :=
  match onlyOr e name with
  | .error x => .error x
  | .ok none => .error .other
  | .ok (some v) => .ok v

/-- `e.get(name, ())` -/
def getAll (e : Found) (name : Str) : List PyStr := (e.attributes.lookup name).getD []

/-- ldap2dhcpconf.py:340-349: one turn of `_cbGetHosts`. -/
def readHost (e : Found) : Py Host := do
  let cn ← only e "cn".toList
  let ips ← Zones.values e "ipHostNumber".toList
  let bootFile ← onlyOr e "bootFile".toList
  return ⟨e.dn, Checker.formatted cn, ips.map Checker.formatted, (getAll e "macAddress".toList).map Checker.formatted, bootFile⟩

/-- ldap2dhcpconf.py:337-350 `_cbGetHosts` -/
def readHosts : List Found → Py (List Host)
  | [] => .ok []
  | e :: es => do
    let h ← readHost e
    let hs ← readHosts es
    return h :: hs

/-- ldap2dhcpconf.py:388-400, and the name of the shared network of lines 401-402. -/
def readNet (e : Found) : Py (Net × Option PyStr) := do
  let cn ← only e "cn".toList
  let address ← only e "ipNetworkNumber".toList
  let mask ← only e "ipNetmaskNumber".toList
  let shared ← onlyOr e "sharedNetworkName".toList
  return (⟨e.dn, cn, address, mask, getAll e "router".toList, getAll e "dhcpRange".toList, getAll e "winsServer".toList,
    getAll e "domainNameServer".toList⟩, shared)

/-- ldap2dhcpconf.py:403-405: the shared networks as an ordered dictionary. -/
def addShared (name : PyStr) (n : Net) : List (PyStr × List Net) → List (PyStr × List Net)
  | [] => [(name, [n])]
  | p :: ps => if p.1 = name then (p.1, p.2 ++ [n]) :: ps else p :: addShared name n ps

/-- ldap2dhcpconf.py:383-409 `_cbGetNets` -/
def readNets : List Found → List Net → List (PyStr × List Net) → Py (List Net × List (PyStr × List Net))
  | [], nets, shared => .ok (nets, shared)
  | e :: es, nets, shared =>
    match readNet e with
    | .error x => .error x
    | .ok (n, some name) => readNets es nets (addShared name n shared)
    | .ok (n, none) => readNets es (nets ++ [n]) shared

/-- The group of each host. -/
abbrev Groups := Nat → Option Nat

/-- ldap2dhcpconf.py:88-100 `Group.addHost` -/
def addHost (groups : Groups) (group host : Nat) : Groups :=
  if groups host = none then fun h => if h = host then some group else groups h else groups

/-- ldap2dhcpconf.py:243-246: `dnToHost` can be made only if no two hosts have the same name. -/
def distinct : List Host → Bool
  | [] => true
  | h :: hs => !(hs.any fun x => x.dn == h.dn) && distinct hs

/-- ldap2dhcpconf.py:252 `dnToHost.get(member, None)`: octets are never equal to text. -/
def dnToHost (hosts : List Host) : PyStr → Option Nat
  | .text s => hosts.findIdx? fun h => h.dn == s
  | .bytes _ => none

/-- ldap2dhcpconf.py:251-254: the members of a group. -/
def addMembers (hosts : List Host) (group : Nat) : List PyStr → Groups → Groups
  | [], groups => groups
  | m :: ms, groups =>
    match dnToHost hosts m with
    | none => addMembers hosts group ms groups
    | some h => addMembers hosts group ms (addHost groups group h)

/-- ldap2dhcpconf.py:248-254: the groups, from position `i` on. -/
def addGroups (hosts : List Host) : List Found → Nat → Groups → Py (List Group × Groups)
  | [], _, groups => .ok ([], groups)
  | e :: es, i, groups => do
    let bootFile ← onlyOr e "bootFile".toList
    let r ← addGroups hosts es (i + 1) (addMembers hosts i (getAll e "member".toList) groups)
    return (⟨e.dn, bootFile⟩ :: r.1, r.2)

/-- ldap2dhcpconf.py:242-256 `_cbGetGroups` -/
def readGroups (hosts : List Host) (entries : List Found) : Py (List Group × Groups) :=
  if distinct hosts then addGroups hosts entries 0 (fun _ => none) else .error .assertionError

/-- An address: a host and a position among its addresses. -/
abbrev Addr := Nat × Nat

/-- The addresses of one host. -/
def hostAddrs (p : Host × Nat) : List Addr := (List.range p.1.ips.length).map fun i => (p.2, i)

/-- The addresses of all hosts, in order. -/
def allAddrs (hosts : List Host) : List Addr := hosts.zipIdx.flatMap hostAddrs

/-- The text of an address. -/
def ipOf (hosts : List Host) (a : Addr) : Str := ((hosts[a.1]?.bind fun h => h.ips[a.2]?)).getD []

/-- ldap2dhcpconf.py:166-172 `Net.isInNet` -/
def isInNet (R : Reader) (n : Net) (ip : Str) : Py Bool := do
  let net ← aton R n.address
  let mask ← aton R n.mask
  let ip ← aton R (.text ip)
  return ip &&& mask == net

/-- ldap2dhcpconf.py:296-302: the first net with an address, from position `i` on. -/
def parentOf (R : Reader) (ip : Str) : List Net → Nat → Py (Option Nat)
  | [], _ => .ok none
  | n :: ns, i =>
    match isInNet R n ip with
    | .error e => .error e
    | .ok true => .ok (some i)
    | .ok false => parentOf R ip ns (i + 1)

/-- ldap2dhcpconf.py:294-307: the addresses of each net, in the order in which they were added to it. -/
def place (R : Reader) (hosts : List Host) (nets : List Net) : List Addr → (Nat → List Addr) → Py (Nat → List Addr)
  | [], placed => .ok placed
  | a :: as, placed =>
    match parentOf R (ipOf hosts a) nets 0 with
    | .error e => .error e
    | .ok none => place R hosts nets as placed
    | .ok (some k) => place R hosts nets as (fun i => if i = k then placed i ++ [a] else placed i)

/-- A piece of what is printed for the addresses of a net. -/
inductive Block where
  | group (g : Nat) (addrs : List Addr)
  | single (a : Addr)
  deriving DecidableEq, Repr

/-- In which order Python goes through a set of addresses. -/
abbrev Order := List Addr → List Addr

/-- ldap2dhcpconf.py:103: the addresses of the hosts of a group. -/
def groupAddrs (hosts : List Host) (groups : Groups) (g : Nat) : List Addr :=
  hosts.zipIdx.flatMap fun p => if groups p.2 = some g then hostAddrs p else []

/-- ldap2dhcpconf.py:102-118 `Group.printDHCP`: the block, if there is one, and the addresses that are left. -/
def printGroup (O : Order) (hosts : List Host) (groups : Groups) (g : Nat) (addrs : List Addr) : List Block × List Addr :=
  let addresses := (groupAddrs hosts groups g).filter fun a => addrs.contains a
  let left := addrs.filter fun a => !addresses.contains a
  if addresses = [] then ([], left) else ([.group g (O addresses)], left)

/-- ldap2dhcpconf.py:205-208: the groups of the hosts of a net. -/
def printGroups (O : Order) (hosts : List Host) (groups : Groups) : List Addr → List Addr → List Block × List Addr
  | [], addrs => ([], addrs)
  | a :: as, addrs =>
    match groups a.1 with
    | none => printGroups O hosts groups as addrs
    | some g =>
      let p := printGroup O hosts groups g addrs
      let q := printGroups O hosts groups as p.2
      (p.1 ++ q.1, q.2)

/-- ldap2dhcpconf.py:203-212: the addresses of a net; `O` also says in which order `addrs.pop()` takes them. -/
def blocks (O : Order) (hosts : List Host) (groups : Groups) (netHosts : List Addr) : List Block :=
  let p := printGroups O hosts groups netHosts netHosts
  p.1 ++ (O p.2).map .single

/-- `print` of lines with a prefix. -/
def lines (px : Str) (l : List Str) : Str := l.flatMap fun s => px ++ s ++ ['\n']

/-- ldap2dhcpconf.py:58-70 `HostIPAddress.printDHCP` -/
def addrText (h : Host) (ip domain px : Str) : Str :=
  lines px (["# ".toList ++ h.dn, "host ".toList ++ h.name ++ ['.'] ++ domain ++ " {".toList]
    ++ h.macs.map (fun m => "\thardware ethernet ".toList ++ m ++ [';'])
    ++ ["\tfixed-address ".toList ++ ip ++ [';']]
    ++ (match h.bootFile with
        | none => []
        | some f => ["\tfilename \"".toList ++ Checker.formatted f ++ "\";".toList])
    ++ ["}".toList])

/-- The text of an address of the list of hosts. -/
def addrOf (hosts : List Host) (domain px : Str) (a : Addr) : Str :=
  match hosts[a.1]? with
  | none => []
  | some h => addrText h (ipOf hosts a) domain px

/-- ldap2dhcpconf.py:107-118, 212: the text of a block. -/
def blockText (hosts : List Host) (groups : List Group) (domain px : Str) : Block → Str
  | .single a => addrOf hosts domain px a
  | .group g addrs =>
    match groups[g]? with
    | none => []
    | some gr =>
      lines px (["# ".toList ++ gr.dn, "group {".toList]
        ++ (match gr.bootFile with
            | none => []
            | some f => ["\tfilename \"".toList ++ Checker.formatted f ++ "\";".toList]))
        ++ addrs.flatMap (addrOf hosts domain (px ++ ['\t'])) ++ lines px ["}".toList]

/-- `", ".join(values)`, which raises TypeError for octets. -/
def joinTexts : List PyStr → Py (List Str)
  | [] => .ok []
  | .bytes _ :: _ => .error .typeError
  | .text s :: vs => do
    let l ← joinTexts vs
    return s :: l

/-- ldap2dhcpconf.py:187-188, 191-198: an option with a list of values. -/
def optionLine (name : Str) (vs : List PyStr) : Py (List Str) :=
  if vs = [] then .ok []
  else do
    let l ← joinTexts vs
    return ["\toption ".toList ++ name ++ [' '] ++ joinWith ", ".toList l ++ [';']]

/-- ldap2dhcpconf.py:179-199: the lines of a net. -/
def header (R : Reader) (n : Net) (domain : Str) : Py (List Str) := do
  let mask ← aton R n.mask
  let nm ← ntoa mask
  let routers ← optionLine "routers".toList n.routers
  let wins ← optionLine "netbios-name-servers".toList n.wins
  let dns ← optionLine "domain-name-servers".toList n.dns
  return ["# ".toList ++ n.dn, "subnet ".toList ++ Checker.formatted n.address ++ " netmask ".toList ++ nm ++ " {".toList,
      "\toption domain-name \"".toList ++ Checker.formatted n.name ++ ['.'] ++ domain ++ "\";".toList]
    ++ routers ++ n.ranges.map (fun r => "\trange ".toList ++ Checker.formatted r ++ [';']) ++ wins ++ dns ++ ["}".toList]

/-- What a run prints with. -/
structure Run where
  reader : Reader
  order : Order
  hosts : List Host
  groups : List Group
  groupOf : Groups
  domain : Str

/-- ldap2dhcpconf.py:178-212 `Net.printDHCP`; `self.name + "."` of lines 208 and 212 raises TypeError for octets. -/
def printNet (r : Run) (n : Net) (netHosts : List Addr) (px : Str) : Str × Py Unit :=
  match header r.reader n r.domain with
  | .error e => ([], .error e)
  | .ok ls =>
    match n.name with
    | .bytes _ => (lines px ls, if netHosts = [] then .ok () else .error .typeError)
    | .text name =>
      (lines px ls ++ (blocks r.order r.hosts r.groupOf netHosts).flatMap (blockText r.hosts r.groups (name ++ ['.'] ++ r.domain) px), .ok ())

/-- Nets one after the other, the first of them at position `i`. -/
def printNets (r : Run) (placed : Nat → List Addr) (px : Str) : List Net → Nat → Str × Py Unit
  | [], _ => ([], .ok ())
  | n :: ns, i =>
    match printNet r n (placed i) px with
    | (t, .error e) => (t, .error e)
    | (t, .ok ()) => (t ++ (printNets r placed px ns (i + 1)).1, (printNets r placed px ns (i + 1)).2)

/-- ldap2dhcpconf.py:234-239, 309-310: the shared networks, the first net of the first of them at position `i`. -/
def printShared (r : Run) (placed : Nat → List Addr) : List (PyStr × List Net) → Nat → Str × Py Unit
  | [], _ => ([], .ok ())
  | (name, nets) :: ss, i =>
    let start := "shared-network \"".toList ++ Checker.formatted name ++ "\" {\n".toList
    match printNets r placed ['\t'] nets i with
    | (t, .error e) => (start ++ t, .error e)
    | (t, .ok ()) =>
      (start ++ t ++ "}\n\n".toList ++ (printShared r placed ss (i + nets.length)).1, (printShared r placed ss (i + nets.length)).2)

/-- ldap2dhcpconf.py:293-312 `haveGroups`: what is printed. -/
def haveGroups (r : Run) (nets : List Net) (shared : List (PyStr × List Net)) : Str × Py Unit :=
  match place r.reader r.hosts (nets ++ shared.flatMap (·.2)) (allAddrs r.hosts) (fun _ => []) with
  | .error e => ([], .error e)
  | .ok placed =>
    match printShared r placed shared nets.length with
    | (t, .error e) => (t, .error e)
    | (t, .ok ()) => (t ++ (printNets r placed [] nets 0).1, (printNets r placed [] nets 0).2)

/-- ldap2dhcpconf.py:376-380, 440-444: the searches give these entries. -/
def search (R : Reader) (O : Order) (domain : Str) (nets hosts groups : List Found) : Str × Py Unit :=
  match readNets nets [] [] with
  | .error e => ([], .error e)
  | .ok (ns, shared) =>
    match readHosts hosts with
    | .error e => ([], .error e)
    | .ok hs =>
      match readGroups hs groups with
      | .error e => ([], .error e)
      | .ok (gs, groupOf) => haveGroups ⟨R, O, hs, gs, groupOf, domain⟩ ns shared

end Verif.Dhcp
