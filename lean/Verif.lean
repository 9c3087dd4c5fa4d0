import Verif.Props.SparseMT
import Verif.Props.SparseMTGadget
import Verif.Props.Data
import Verif.Props.Schnorr
import Verif.Props.Contract
import Verif.Props.Aggregator
import Verif.Proof.AggregatorEpoch
import Verif.Props.AggregatorCalls
import Verif.Props.AggregatorCircuitRuns
import Verif.Props.AggregatorProvable
import Verif.Props.AggregatorExact
import Verif.Props.Grumpkin
import Verif.Props.Sponge
import Verif.Props.Intake
import Verif.Props.ClientRuns
import Verif.Props.ClientExamples
import Verif.Props.EndToEndDemo
import Verif.Props.TreeGadgets
import Verif.Props.Wallet
import Verif.Props.ClientAccept
import Verif.Props.Validate
import Verif.Props.SignatureBinding
import Verif.Props.StateVector
import Verif.Props.Binding
import Verif.Props.Capacity
import Verif.Props.Witness
import Verif.Props.BlockChain
import Verif.Props.Width
import Verif.Props.Padding
import Verif.Props.ChainBalances
import Verif.Props.TxTrees
import Verif.Props.Defaults
import Verif.Props.ClientChain
import Verif.Props.Lifetime
import Verif.Props.NewTree
import Verif.Props.CasesCircuit
import Verif.Props.CasesTrees
import Verif.Props.TreeSoundness
import Verif.Props.CasesData
import Verif.Props.CasesClient
import Verif.Props.CasesChain
import Verif.Props.CasesEpoch
import Verif.Props.CasesUsers
import Verif.Props.ClientClaims
import Verif.Props.CasesClaims
import Verif.Props.CasesOwnBlocks
import Verif.Props.Order
import Verif.Props.Withheld
import Verif.Props.CasesOrder
import Verif.Props.Liveness
import Verif.Props.CasesLiveness
import Verif.Props.KeepUp
import Verif.Props.CasesKeepUp
import Verif.Props.Storage
import Verif.Props.AggregatorStorage
import Verif.Props.CasesStorage
import Verif.Props.Signing
import Verif.Props.CasesInstances
import Verif.Model.Program
import Verif.Spec.Program
import Verif.Proof.Program
import Verif.Proof.ProgramValues
import Verif.Spec.Assignment
import Verif.Spec.Layout
import Verif.Proof.ProgramLayout
import Verif.Proof.ProgramSound
import Verif.Proof.ProgramComplete
import Verif.Props.Program
import Verif.Props.ProgramMeaning
import Verif.Props.ProgramInputs
import Verif.Props.ProgramClaims
import Verif.Props.CasesProgram
import Verif.Props.SignatureUse
import Verif.Props.CasesSignature
import Verif.Props.Griefing
import Verif.Props.CasesGriefing
import Verif.Props.Registry
import Verif.Props.CasesRegistry
import Verif.Props.Freedom
import Verif.Props.CasesFreedom
import Verif.Props.Domain
import Verif.Props.CasesDomain
import Verif.Props.Size
import Verif.Props.CasesSize
import Verif.Props.CallOrder
import Verif.Props.Copies
import Verif.Props.CasesCopies
import Verif.Props.Gather
import Verif.Props.CasesGather
