import Verif.Basic
import Verif.OMap
import Verif.Bt
import Verif.Data
import Verif.DataLemmas
import Verif.Msg
import Verif.MsgLemmas
import Verif.ParseSound
import Verif.MergeLemmas
import Verif.Spec
import Verif.LeafLemmas
import Verif.ReplayLemmas
import Verif.MergeResult
import Verif.History
import Verif.Local
import Verif.SigBound
import Verif.Props.Wire
import Verif.Batch
import Verif.Props.Diff
import Verif.Props.Merge
import Verif.Say
import Verif.Honest
import Verif.Props.Concurrent
import Verif.Encrypt
import Verif.Client
import Verif.ClientInv
import Verif.ClientRestore
import Verif.ClientMerge
import Verif.Props.Client
import Verif.Props.ClientNet
import Verif.Props.ClientHash
import Verif.Props.ClientDump
import Verif.Props.ClientKeys
import Verif.Props.ClientAsserts
import Verif.Proxy
import Verif.Neat
import Verif.Props.Fields
import Verif.Hex
import Verif.Records
import Verif.Table
import Verif.Contacts
import Verif.Props.Contacts
import Verif.Profile
import Verif.Props.Profile
import Verif.Community
import Verif.Props.Community
import Verif.Convo
import Verif.Props.Convo
import Verif.Props.Network
import Verif.Props.ContactsNet
import Verif.Props.Multi
import Verif.Props.GroupMsg
import Verif.Props.Subaccount
import Verif.Props.SessionEncrypt
import Verif.Props.SessionEncryptWitness
import Verif.UserGroups
import Verif.RecTable
import Verif.Props.UserGroups
import Verif.Props.UserComm
import Verif.Props.UserGroupsNet
import Verif.Props.LegacyNet
import Verif.Props.UserGroupsWitness
import Verif.GroupMembers
import Verif.Props.GroupMembers
import Verif.GroupState
import Verif.Props.GroupState
import Verif.Protos
import Verif.Props.Protos
import Verif.Onion
import Verif.Props.Onion
import Verif.BtMerge
import Verif.Props.BtMerge
import Verif.KeyApi
import Verif.Props.KeyApi
import Verif.CMem
import Verif.Props.CMem
import Verif.CErr
import Verif.Props.CErr
import Verif.CIter
import Verif.Props.CIter
import Verif.Sodium
import Verif.Props.Sodium
import Verif.Construct
import Verif.Props.Construct
import Verif.Helpers
import Verif.Props.Helpers
import Verif.CEnc
import Verif.Props.CEnc
import Verif.CMulti
import Verif.Props.CMulti
import Verif.Promotion
import Verif.Props.Promotion
import Verif.Iter
import Verif.Props.Iter
import Verif.Props.Combine
import Verif.Encodings
import Verif.Props.Encodings
import Verif.COnion
import Verif.Props.COnion
import Verif.CComm
import Verif.Props.CComm
import Verif.CommObj
import Verif.Props.CommObj
import Verif.CCrypt
import Verif.Props.CCrypt
import Verif.CKeys
import Verif.Props.CKeys
import Verif.CBase
import Verif.CProfile
import Verif.CStructs
import Verif.Props.CBase
import Verif.Props.CProfile
import Verif.Props.Exact
import Verif.Props.Recovery
import Verif.Props.World
import Verif.Props.Exclude
import Verif.Props.Agree
import Verif.Props.Maps
import Verif.Props.CStructs
import Verif.Props.ConvoMap
import Verif.Props.GroupList
import Verif.Kinds
import Verif.Props.Kinds
import Verif.Props.Format
import Verif.Props.Fresh
import Verif.Props.Procedure
import Verif.Props.KeyFormat
import Verif.Props.Hang
import Verif.Props.PushSize
import Verif.CConvo
import Verif.Props.CConvo
import Verif.CRoll
import Verif.Props.CRoll
import Verif.Props.Reload
import Verif.Props.Pruned
import Verif.Props.Again
import Verif.Props.Torn
import Verif.Props.Line
import Verif.Props.KeysReload
import Verif.Props.Envelope
import Verif.Props.ReadOnly
import Verif.KeySlots
import Verif.Props.KeySlots
import Verif.Props.Takeover
import Verif.Props.Claims
import Verif.Props.Turns
import Verif.Props.Follow
import Verif.Props.OneDevice
import Verif.Props.OneAccount
