import Verif.Common
import Verif.Relations.Props
import Verif.Circuits.BACSProps
import Verif.Circuits.TBCSProps
import Verif.Reductions.QAPProps
import Verif.Reductions.SSPProps
import Verif.Reductions.SAPProps
import Verif.Data.SparseVectorProps
import Verif.Data.IntPermProps
import Verif.Data.NextPerm
import Verif.Data.NextPermProps
import Verif.Data.KCProps
import Verif.Data.MerkleProps
import Verif.Data.MemoryProps
import Verif.Routing.BenesProps
import Verif.Routing.WaksmanProps
import Verif.Routing.GadgetProps
import Verif.Gadgets.ProtoboardProps
import Verif.Gadgets.Bridge
import Verif.Gadgets.BasicProps
import Verif.Snarks.GGProps
import Verif.Snarks.PGHRProps
import Verif.Snarks.SEProps
import Verif.Snarks.USCSProps
import Verif.Snarks.WrapperProps
import Verif.Hashes.Sha256Props
import Verif.Merkle.Tree
import Verif.Hashes.KnapsackProps
import Verif.Ram.TinyramProps
import Verif.Ram.BootProps
import Verif.Ram.UniversalProps
import Verif.Ram.FooramProps
import Verif.Serial.SerialProps
import Verif.Ram.Alu
import Verif.Ram.AluSpec
import Verif.Ram.Words
import Verif.Ram.AluSound
import Verif.Ram.AluSound2
import Verif.Ram.AluRun
import Verif.Ram.AluComp
import Verif.Ram.AluComp2
import Verif.Ram.AluComp3
import Verif.Ram.AluComp4
import Verif.Ram.AluAll
import Verif.Ram.AluProps
import Verif.Ram.TinyCpu
import Verif.Ram.TinyMachine
import Verif.Ram.TinyParts
import Verif.Ram.TinyMask
import Verif.Ram.TinyEnforcer
import Verif.Ram.TinyLayout
import Verif.Ram.TinyCpuSat
import Verif.Ram.TinyCpuSound
import Verif.Ram.TinyCpuRun
import Verif.Ram.TinyCpuRun2
import Verif.Ram.TinyCpuRun3
import Verif.Ram.TinyCpuRun4
import Verif.Ram.TinyCpuRun5
import Verif.Ram.TinyCpuRun6
import Verif.Ram.TinyCpuComp
import Verif.Ram.TinyCpuProps
import Verif.Ram.TinyCpuOpen
import Verif.Fields.Model
import Verif.Fields.Spec
import Verif.Fields.Sat
import Verif.Fields.Witness
import Verif.Fields.Witness46
import Verif.Fields.Props
import Verif.Fields.Exp
import Verif.Fields.ExpSound
import Verif.Fields.ExpWitness
import Verif.Fields.ExpKits
import Verif.Fields.ExpKitsProps
import Verif.Fields.ExpProps
import Verif.Pairing.FinalExp
import Verif.Pairing.FinalExpProps
import Verif.Pairing.FinalExpComplete
import Verif.Pairing.FinalExpComplete6
import Verif.Curves.Model
import Verif.Curves.Sound
import Verif.Curves.Witness
import Verif.Curves.Msm
import Verif.Curves.G2
import Verif.Curves.Props
import Verif.Snarks.RamSnark
import Verif.Snarks.RamSnarkProps
import Verif.Snarks.Demo97
import Verif.Snarks.Trapdoor
import Verif.Snarks.GGKnowledge
import Verif.Snarks.PGHRKnowledge
import Verif.Snarks.SEKnowledge
import Verif.Snarks.USCSKnowledge
import Verif.Gadgetlib2.Model
import Verif.Gadgetlib2.Lemmas
import Verif.Gadgetlib2.ExprProps
import Verif.Gadgetlib2.WordProps
import Verif.Gadgetlib2.Gadgets
import Verif.Gadgetlib2.GadgetLemmas
import Verif.Gadgetlib2.GadgetProps
import Verif.Gadgetlib2.MuxProps
import Verif.Gadgetlib2.PackProps
import Verif.Gadgetlib2.CmpProps
import Verif.Gadgetlib2.WideExample
import Verif.Gadgetlib2.Adapter
import Verif.Gadgetlib2.AdapterProps
import Verif.Gadgets.FromR1CS
import Verif.Gadgets.FromR1CSProps
import Verif.Circuits.Examples
import Verif.Circuits.ExamplesProps
import Verif.Circuits.ExamplesCircuitProps
import Verif.Circuits.ExamplesMore
import Verif.Circuits.ExamplesMoreProps
import Verif.Snarks.ADSnark
import Verif.Snarks.ADLemmas
import Verif.Snarks.ADProps
import Verif.PCD.Predicate
import Verif.PCD.PredicateProps
import Verif.PCD.Tally
import Verif.PCD.TallyProps
import Verif.PCD.SpCircuits
import Verif.PCD.SpLayout
import Verif.PCD.SpProps
import Verif.PCD.SpWitness
import Verif.PCD.SpComplete
import Verif.PCD.SpPcd
import Verif.PCD.SpPcdProps
import Verif.PCD.SpToy
import Verif.PCD.MpCircuits
import Verif.PCD.MpLayout
import Verif.PCD.MpProps
import Verif.PCD.MpWitness
import Verif.PCD.MpLoops
import Verif.PCD.MpComplete
import Verif.PCD.MpToy
import Verif.PCD.MpPcd
import Verif.PCD.MpPcdProps
import Verif.PCD.MpHistory
import Verif.PCD.MpPcdToy
import Verif.PCD.RamPredicate
import Verif.PCD.RamStep
import Verif.PCD.RamSound
import Verif.PCD.RamRun
import Verif.PCD.RamFinal
import Verif.PCD.RamToy
import Verif.PCD.RamFooram
import Verif.PCD.RamChain
import Verif.PCD.RamInstance
import Verif.Merkle.SetCommitment
import Verif.Merkle.SetProps
import Verif.Merkle.Complete
import Verif.Merkle.SetComplete
import Verif.Merkle.SetBuild
import Verif.Merkle.CompleteUpdate
import Verif.Merkle.UpdateToy
