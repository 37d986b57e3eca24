import Verif.Prelude
import Verif.Spec.Pol
import Verif.Spec.Text
import Verif.Model.Policy
import Verif.Model.SecretSharing
import Verif.Model.Msp
import Verif.Model.Dnf
import Verif.Model.Aes
import Verif.Model.Pest
import Verif.Model.PestSteps
import Verif.Model.PestDepth
import Verif.Model.Bsw
import Verif.Instance.Prime
import Verif.Instance.Bn
import Verif.Proof.Lagrange
import Verif.Proof.Tree
import Verif.Proof.Privacy
import Verif.Proof.Labels
import Verif.Proof.Common
import Verif.Spec.Selection
import Verif.Proof.Selection
import Verif.Proof.Parser
import Verif.Proof.ParserNum
import Verif.Proof.Bsw
import Verif.Props.Parser
import Verif.Props.Policy
import Verif.Model.Recover
import Verif.Props.Sharing
import Verif.Props.Recover
import Verif.Props.Order
import Verif.Props.Aes
import Verif.Proof.Msp
import Verif.Proof.Dnf
import Verif.Props.Msp
import Verif.Props.MspPositions
import Verif.Props.Bsw
import Verif.Props.Dnf
import Verif.Model.Ac17
import Verif.Proof.Ac17
import Verif.Props.Ac17
import Verif.Model.Ghw11
import Verif.Proof.Ghw11
import Verif.Props.Ghw11
import Verif.Model.Lsw
import Verif.Proof.KpCommon
import Verif.Proof.Lsw
import Verif.Props.Lsw
import Verif.Model.Yct14
import Verif.Proof.Yct14
import Verif.Props.Yct14
import Verif.Model.Aw11
import Verif.Instance.Case
import Verif.Proof.Aw11
import Verif.Props.Aw11
import Verif.Model.Bdabe
import Verif.Model.Mke08
import Verif.Proof.DnfScheme
import Verif.Proof.Bdabe
import Verif.Props.Bdabe
import Verif.Proof.Mke08
import Verif.Props.Mke08
import Verif.Spec.Grammar
import Verif.Spec.Print
import Verif.Proof.Grammar
import Verif.Proof.GrammarHuman
import Verif.Proof.GrammarJson
import Verif.Proof.GrammarMixed
import Verif.Proof.Print
import Verif.Props.Grammar
import Verif.Model.Borsh
import Verif.Model.BorshTypes
import Verif.Proof.Borsh
import Verif.Model.Console
import Verif.Proof.Console
import Verif.Instance.Console
import Verif.Props.Borsh
import Verif.Props.Console
import Verif.Proof.ConsoleChain
import Verif.Props.ConsoleChain
import Verif.Props.ConsoleFrame
import Verif.Props.ConsoleObjects
import Verif.Props.ConsoleSession
import Verif.Props.Abort
import Verif.Model.Serde
import Verif.Proof.Serde
import Verif.Props.Serde
import Verif.Model.MspDisplay
import Verif.Proof.MspDisplay
import Verif.Props.MspDisplay
import Verif.Proof.Collusion
import Verif.Props.Collusion
import Verif.Check.Utils
import Verif.Check.Schemes
import Verif.Props.Total
import Verif.Props.Ac17Transfer
import Verif.Props.StoredPolicy
import Verif.Props.StoredPolicyAw11
import Verif.Proof.Fresh
import Verif.Proof.Inject
import Verif.Props.Fresh
import Verif.Props.FreshUsed
import Verif.Props.FreshUsedKp
import Verif.Props.FreshUsedDnf
import Verif.Props.FreshUsedAc17
import Verif.Props.FreshCases
import Verif.Props.Contents
import Verif.Props.Unlink
import Verif.Props.Payload
import Verif.Props.ParseSteps
import Verif.Proof.Lookup
import Verif.Props.Outcome
import Verif.Props.OutcomeKp
import Verif.Props.OutcomeAw11
import Verif.Props.DnfExact
import Verif.Props.OutcomeDnf
import Verif.Props.OutcomeAc17
import Verif.Props.Ffi
import Verif.Spec.Generic
import Verif.Proof.Generic
import Verif.Proof.DnfMap
import Verif.Props.Outsider
import Verif.Props.OutsiderDnf
import Verif.Props.OutsiderAw11
import Verif.Props.OutsiderCases
import Verif.Props.LeafObjects
import Verif.Model.Error
import Verif.Props.Error
import Verif.Props.OneKey
import Verif.Props.YctKeys
import Verif.Props.Service
import Verif.Props.Main
import Verif.Props.Sound
import Verif.Props.Coalition
import Verif.Props.Siblings
import Verif.Proof.Lines
import Verif.Props.Identities
import Verif.Props.TwoUsers
import Verif.Props.Authorities
import Verif.Props.AuthoritiesBdabe
import Verif.Props.ConsoleRefusal
import Verif.Props.ConsoleFiles
import Verif.Props.Sizes
import Verif.Props.Readdress
import Verif.Props.ParseDepth
import Verif.Props.GrammarFirst
import Verif.Props.DishonestAw11
import Verif.Props.RogueAw11
import Verif.Props.Dishonest
import Verif.Props.StoredAc17
import Verif.Props.StoredKey
import Verif.Props.FfiHeap
import Verif.Spec.Layout
import Verif.Proof.Layout
import Verif.Proof.Columns
import Verif.Props.Layout
import Verif.Model.CommandLine
import Verif.Proof.CommandLine
import Verif.Props.CommandLine
import Verif.Props.SerdeForms
import Verif.Proof.Translation
import Verif.Proof.Relabel
import Verif.Props.Translation
import Verif.Model.Docs
import Verif.Props.Docs
import Verif.Props.PublicKeys
import Verif.Props.AttributeLists
import Verif.Props.Chance
import Verif.Props.Blinding
import Verif.Model.Tests
import Verif.Props.Tests
import Verif.Model.TestsKp
import Verif.Model.TestsMa
import Verif.Props.TestsKp
import Verif.Props.TestsMa
import Verif.Model.TestsAw11
import Verif.Props.TestsAw11
import Verif.Model.TestsUtils
import Verif.Props.TestsUtils
