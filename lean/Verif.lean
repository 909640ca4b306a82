import Verif.Props.Uuid
import Verif.Props.Clock
import Verif.Props.Key
import Verif.Props.Status
import Verif.Props.Hash
import Verif.Props.Utf
import Verif.Props.Literals
import Verif.Props.Cursor
import Verif.Props.Merge
import Verif.Props.Rga
import Verif.Props.IncStack
import Verif.Props.Scan
import Verif.Props.Lww
import Verif.Props.LwwWrite
import Verif.Props.LwwText
import Verif.Props.Store
import Verif.Props.Joined
import Verif.Props.Types
import Verif.Props.Replica
import Verif.Props.Merkle
import Verif.Props.Split
import Verif.Props.Compare
import Verif.Props.Chains
import Verif.Props.Text
import Verif.Props.Syntax
import Verif.Props.Annotations
import Verif.Props.Lineage
import Verif.Props.LineageSame
import Verif.Props.LineageFrames
import Verif.Props.Sync
import Verif.Props.Network
import Verif.Props.Fork
import Verif.Props.HashFrame
import Verif.Props.MaxStore
import Verif.Props.LineageMax
import Verif.Props.Builder
import Verif.Props.Copy
import Verif.Props.Filing
import Verif.Props.Lifecycle
import Verif.Props.Names
import Verif.Props.Strings
import Verif.Props.Query
import Verif.Props.TxtWrite
import Verif.Props.Reuse
import Verif.Props.Slice
import Verif.Props.Kinds
import Verif.Props.Recall
import Verif.Props.Cli
import Verif.Props.Script
import Verif.Props.TextMerge
import Verif.Props.TextState
import Verif.Props.Groups
import Verif.Props.TestRun
import Verif.Props.Comments
import Verif.Props.TextChain
import Verif.Props.TextFind
import Verif.Props.TextLog
import Verif.Props.TextReplica
import Verif.Model.TextReceive
import Verif.Lemmas.TextReceive
import Verif.Props.TextReceive
import Verif.Props.TextObjects
import Verif.Props.TextQuery
import Verif.Props.TextQueryLog
import Verif.Props.OpNul
import Verif.Props.TextTxt
import Verif.Props.LwwState
import Verif.Props.LwwUuid
import Verif.Props.LwwOrder
import Verif.Props.Random
import Verif.Props.Handle
import Verif.Props.TextMax
import Verif.Props.CliNames
import Verif.Props.Reserialize
import Verif.Props.Converge
import Verif.Props.MaxUuid
import Verif.Props.RgaGroups
import Verif.Props.Dump
import Verif.Props.Families
import Verif.Checks.Ron
import Verif.Checks.Sha
import Verif.Checks.Rdt
import Verif.Checks.Db
