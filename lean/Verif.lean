import Verif.Lemmas.Base64
import Verif.Lemmas.Ber
import Verif.Lemmas.Client
import Verif.Lemmas.ClientSent
import Verif.Lemmas.Concurrent
import Verif.Lemmas.Conn
import Verif.Lemmas.Decimal
import Verif.Lemmas.Decode
import Verif.Lemmas.Delta
import Verif.Lemmas.Diff
import Verif.Lemmas.DiffReplay
import Verif.Lemmas.DiffTree
import Verif.Lemmas.Directory
import Verif.Lemmas.Dn
import Verif.Lemmas.DnOrder
import Verif.Lemmas.Element
import Verif.Lemmas.Equality
import Verif.Lemmas.Exchange
import Verif.Lemmas.ExchangeUnique
import Verif.Lemmas.FilterEq
import Verif.Lemmas.FilterGrammar
import Verif.Lemmas.FilterText
import Verif.Lemmas.Ldif
import Verif.Lemmas.LdifChange
import Verif.Lemmas.LdifEntry
import Verif.Lemmas.LdifRead
import Verif.Lemmas.LdifTree
import Verif.Lemmas.LdifTreeAdd
import Verif.Lemmas.LdifTreeAny
import Verif.Lemmas.LdifTreeCommit
import Verif.Lemmas.LdifTreeList
import Verif.Lemmas.LdifTreeLookup
import Verif.Lemmas.LdifTreeMove
import Verif.Lemmas.LdifTreePut
import Verif.Lemmas.LoadLdif
import Verif.Lemmas.Lookup
import Verif.Lemmas.Match
import Verif.Lemmas.Merger
import Verif.Lemmas.PdnsPipe
import Verif.Lemmas.Pipe
import Verif.Lemmas.Proxy
import Verif.Lemmas.ProxyBase
import Verif.Lemmas.ProxyCore
import Verif.Lemmas.ProxyHistory
import Verif.Lemmas.ProxySystem
import Verif.Lemmas.PyStr
import Verif.Lemmas.RdnOctets
import Verif.Lemmas.Rename
import Verif.Lemmas.RenameOk
import Verif.Lemmas.Roundtrip
import Verif.Lemmas.RoundtripOp
import Verif.Lemmas.Schema
import Verif.Lemmas.SchemaText
import Verif.Lemmas.Server
import Verif.Lemmas.ServerBase
import Verif.Lemmas.ServerModify
import Verif.Lemmas.ServerSame
import Verif.Lemmas.ServerSearch
import Verif.Lemmas.Shared
import Verif.Lemmas.Stall
import Verif.Lemmas.Substring
import Verif.Lemmas.Syntax
import Verif.Lemmas.SyntaxItems
import Verif.Lemmas.Total
import Verif.Lemmas.Transport
import Verif.Lemmas.Tree
import Verif.Lemmas.TreeView
import Verif.Lemmas.Utf8
import Verif.Lemmas.Wire
import Verif.Model.AttributeSet
import Verif.Model.Autofill
import Verif.Model.Base64
import Verif.Model.Basic
import Verif.Model.Ber
import Verif.Model.Checker
import Verif.Model.Client
import Verif.Model.ClientSearch
import Verif.Model.ClientTree
import Verif.Model.Concurrent
import Verif.Model.Conn
import Verif.Model.Connector
import Verif.Model.Decimal
import Verif.Model.Delta
import Verif.Model.Dhcp
import Verif.Model.DiffTree
import Verif.Model.Dn
import Verif.Model.Dns
import Verif.Model.Entry
import Verif.Model.Equality
import Verif.Model.Errors
import Verif.Model.FetchSchema
import Verif.Model.FilterObj
import Verif.Model.FilterText
import Verif.Model.FindServer
import Verif.Model.FreeNumber
import Verif.Model.Identity
import Verif.Model.Ldap
import Verif.Model.Ldif
import Verif.Model.LdifPatch
import Verif.Model.LdifTree
import Verif.Model.LdifTreeCommit
import Verif.Model.LdifTreeMove
import Verif.Model.LoadLdif
import Verif.Model.Log
import Verif.Model.Match
import Verif.Model.Members
import Verif.Model.Merger
import Verif.Model.NamingContext
import Verif.Model.NumberAlloc
import Verif.Model.Options
import Verif.Model.Passwd
import Verif.Model.Password
import Verif.Model.PasswordRequest
import Verif.Model.PdnsPipe
import Verif.Model.Proxy
import Verif.Model.ProxyBase
import Verif.Model.ProxySession
import Verif.Model.Pwgen
import Verif.Model.PyStr
import Verif.Model.Samba
import Verif.Model.SambaPassword
import Verif.Model.Schema
import Verif.Model.Server
import Verif.Model.ServerBase
import Verif.Model.ServiceBind
import Verif.Model.Session
import Verif.Model.SetPassword
import Verif.Model.Shared
import Verif.Model.Syntax
import Verif.Model.Text
import Verif.Model.Tree
import Verif.Model.Utf8
import Verif.Model.Zones
import Verif.Props.C01
import Verif.Props.C02
import Verif.Props.C03
import Verif.Props.C04
import Verif.Props.C05
import Verif.Props.C06
import Verif.Props.C07
import Verif.Props.C08
import Verif.Props.C09
import Verif.Props.C10
import Verif.Props.C100
import Verif.Props.C101
import Verif.Props.C102
import Verif.Props.C103
import Verif.Props.C104
import Verif.Props.C105
import Verif.Props.C106
import Verif.Props.C107
import Verif.Props.C108
import Verif.Props.C109
import Verif.Props.C11
import Verif.Props.C110
import Verif.Props.C12
import Verif.Props.C13
import Verif.Props.C14
import Verif.Props.C15
import Verif.Props.C16
import Verif.Props.C17
import Verif.Props.C18
import Verif.Props.C19
import Verif.Props.C20
import Verif.Props.C21
import Verif.Props.C22
import Verif.Props.C23
import Verif.Props.C24
import Verif.Props.C25
import Verif.Props.C26
import Verif.Props.C27
import Verif.Props.C28
import Verif.Props.C29
import Verif.Props.C30
import Verif.Props.C31
import Verif.Props.C32
import Verif.Props.C33
import Verif.Props.C34
import Verif.Props.C35
import Verif.Props.C36
import Verif.Props.C37
import Verif.Props.C38
import Verif.Props.C39
import Verif.Props.C40
import Verif.Props.C41
import Verif.Props.C42
import Verif.Props.C43
import Verif.Props.C44
import Verif.Props.C45
import Verif.Props.C46
import Verif.Props.C47
import Verif.Props.C48
import Verif.Props.C49
import Verif.Props.C50
import Verif.Props.C51
import Verif.Props.C52
import Verif.Props.C53
import Verif.Props.C54
import Verif.Props.C55
import Verif.Props.C56
import Verif.Props.C57
import Verif.Props.C58
import Verif.Props.C59
import Verif.Props.C60
import Verif.Props.C61
import Verif.Props.C62
import Verif.Props.C63
import Verif.Props.C64
import Verif.Props.C65
import Verif.Props.C66
import Verif.Props.C67
import Verif.Props.C68
import Verif.Props.C69
import Verif.Props.C70
import Verif.Props.C71
import Verif.Props.C72
import Verif.Props.C73
import Verif.Props.C74
import Verif.Props.C75
import Verif.Props.C76
import Verif.Props.C77
import Verif.Props.C78
import Verif.Props.C79
import Verif.Props.C80
import Verif.Props.C81
import Verif.Props.C82
import Verif.Props.C83
import Verif.Props.C84
import Verif.Props.C85
import Verif.Props.C86
import Verif.Props.C87
import Verif.Props.C88
import Verif.Props.C89
import Verif.Props.C90
import Verif.Props.C91
import Verif.Props.C92
import Verif.Props.C93
import Verif.Props.C94
import Verif.Props.C95
import Verif.Props.C96
import Verif.Props.C97
import Verif.Props.C98
import Verif.Props.C99
import Verif.Spec.Autofill
import Verif.Spec.Ber
import Verif.Spec.Client
import Verif.Spec.ClientSearch
import Verif.Spec.ClientTree
import Verif.Spec.Concurrent
import Verif.Spec.Dhcp
import Verif.Spec.Directory
import Verif.Spec.Dn
import Verif.Spec.DnGrammar
import Verif.Spec.Each
import Verif.Spec.Element
import Verif.Spec.Equality
import Verif.Spec.FilterGrammar
import Verif.Spec.FilterOctets
import Verif.Spec.FilterText
import Verif.Spec.FindServer
import Verif.Spec.Ldif
import Verif.Spec.LdifTree
import Verif.Spec.Log
import Verif.Spec.Match
import Verif.Spec.Members
import Verif.Spec.Merger
import Verif.Spec.Message
import Verif.Spec.Modify
import Verif.Spec.Options
import Verif.Spec.Passwd
import Verif.Spec.PdnsPipe
import Verif.Spec.Proxied
import Verif.Spec.Proxy
import Verif.Spec.ProxyBase
import Verif.Spec.Pwgen
import Verif.Spec.ResultCode
import Verif.Spec.Rfc2849
import Verif.Spec.SambaPassword
import Verif.Spec.Schema
import Verif.Spec.Search
import Verif.Spec.Server
import Verif.Spec.Session
import Verif.Spec.Shared
import Verif.Spec.Size
import Verif.Spec.Stream
import Verif.Spec.Substring
import Verif.Spec.Syntax
import Verif.Spec.Tree
import Verif.Spec.Zones
