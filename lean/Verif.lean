import Verif.Basic
import Verif.ListLemmas
import Verif.BgiModel
import Verif.BgiLemmas
import Verif.BgiDomain
import Verif.BgiStreamModel
import Verif.BgiStream
import Verif.BgiProps
import Verif.BgiNaiveProps
import Verif.CuckooModel
import Verif.CuckooLemmas
import Verif.CuckooInsert
import Verif.CuckooProps
import Verif.CuckooConcModel
import Verif.CuckooConc
import Verif.CuckooConcProps
import Verif.CuckooWideModel
import Verif.CuckooWide
import Verif.CuckooWideTime
import Verif.CuckooWideProps
import Verif.HasherModel
import Verif.HasherLemmas
import Verif.HasherProps
import Verif.SimpleModel
import Verif.SimpleLemmas
import Verif.SimpleProps
import Verif.BalancedModel
import Verif.BalancedLemmas
import Verif.BalancedProps
import Verif.PushModel
import Verif.PushLemmas
import Verif.PushProps
import Verif.ShuffleModel
import Verif.ShuffleLemmas
import Verif.ShuffleProps
import Verif.FileModel
import Verif.FileLemmas
import Verif.FileProps
import Verif.KkrtModel
import Verif.KkrtLemmas
import Verif.KkrtRecv
import Verif.KkrtProps
import Verif.PartModel
import Verif.PartLemmas
import Verif.PartProps
import Verif.EcdhModel
import Verif.EcdhLemmas
import Verif.EcdhProps
import Verif.DcwModel
import Verif.DcwLemmas
import Verif.DcwProps
import Verif.ReuseModel
import Verif.ReuseProps
import Verif.ReuseMoreProps
import Verif.Rr16Model
import Verif.Rr16Lemmas
import Verif.Rr16Props
import Verif.Rr16ParamModel
import Verif.Rr16ParamLemmas
import Verif.Rr16ParamProps
import Verif.Rr17PhaseModel
import Verif.Rr17PhaseLemmas
import Verif.Rr17PhaseProps
import Verif.Rr17aModel
import Verif.Rr17aLemmas
import Verif.Rr17aProps
import Verif.Rr17MaskModel
import Verif.Rr17MaskProps
import Verif.Rr17bModel
import Verif.Rr17bLemmas
import Verif.Rr17bProps
import Verif.DktModel
import Verif.DktLemmas
import Verif.DktProps
import Verif.PromiseModel
import Verif.PromiseLemmas
import Verif.PromiseProps
import Verif.Grr18Model
import Verif.Grr18Lemmas
import Verif.Grr18Props
import Verif.DrrnModel
import Verif.DrrnSpec
import Verif.DrrnLemmas
import Verif.DrrnProps
import Verif.DrrnBlocksProps
import Verif.PrtyPrimes
import Verif.PrtyModel
import Verif.PrtyLemmas
import Verif.PrtyProps
import Verif.PrtyTreeModel
import Verif.PrtyTreeLemmas
import Verif.PrtyTreeNodes
import Verif.PrtyTreeProps
import Verif.PrtyDeltaModel
import Verif.PrtyDeltaSpec
import Verif.PrtyDeltaLemmas
import Verif.PrtyDeltaRounds
import Verif.PrtyDeltaProps
import Verif.PrtyCoeffModel
import Verif.PrtyCoeffSpec
import Verif.PrtyCoeffLemmas
import Verif.PrtyCoeffProps
import Verif.SeedModel
import Verif.SeedProps
import Verif.BinSizeModel
import Verif.BinSizeSpec
import Verif.BinSizeLemmas
import Verif.BinSizeWitness
import Verif.BinSizeProps
import Verif.CuckooParamModel
import Verif.CuckooParamProps
import Verif.CuckooValidateModel
import Verif.CuckooValidateLemmas
import Verif.CuckooValidateProps
import Verif.SessionModel
import Verif.SessionLemmas
import Verif.InitModel
import Verif.InitProps
import Verif.NetModel
import Verif.NetLemmas
import Verif.Net2Lemmas
import Verif.OnlineModel
import Verif.OnlineLemmas
import Verif.OnlineProps
import Verif.OnlineSumProps
import Verif.SCuckooModel
import Verif.SCuckooLemmas
import Verif.SCuckooProps
import Verif.FrontModel
import Verif.FrontLemmas
import Verif.FrontProps
import Verif.FileRunModel
import Verif.FileRunProps
import Verif.Grr18LoadModel
import Verif.Grr18LoadProps
import Verif.Grr18DpModel
import Verif.Grr18DpLemmas
import Verif.Grr18DpProps
import Verif.Grr18NoiseModel
import Verif.Grr18NoiseProps
import Verif.HasherConcModel
import Verif.HasherConcLemmas
import Verif.HasherConcProps
import Verif.CollLemmas
import Verif.EcdhProbProps
import Verif.KkrtProbModel
import Verif.KkrtProbProps
import Verif.PrtyProbModel
import Verif.PrtyProbProps
import Verif.BgiPrivSpec
import Verif.BgiPrivLemmas
import Verif.BgiPrivHybLemmas
import Verif.BgiPrivProps
import Verif.KkrtPermProps
import Verif.ShuffleRandModel
import Verif.ShuffleRandSpec
import Verif.ShuffleRandLemmas
import Verif.ShuffleRandProps
import Verif.DktZkSpec
import Verif.DktZkProps
import Verif.Rr16HideSpec
import Verif.Rr16HideProps
import Verif.OrderSpec
import Verif.OrderProps
import Verif.CrossLemmas
import Verif.Grr18PlaceSpec
import Verif.Grr18PlaceProps
import Verif.DomSpec
import Verif.DomProps
import Verif.XorLemmas
import Verif.Rr17aProbSpec
import Verif.Rr17aProbLemmas
import Verif.Rr17aProbProps
import Verif.DrrnFullModel
import Verif.DrrnFullLemmas
import Verif.DrrnFullProps
import Verif.DrrnViewModel
import Verif.DrrnViewLemmas
import Verif.DrrnHideLemmas
import Verif.DrrnViewProps
import Verif.ParitySpec
import Verif.ParityLemmas
import Verif.DcwProbSpec
import Verif.DcwProbLemmas
import Verif.DcwProbProps
import Verif.DcwViewModel
import Verif.DcwViewSpec
import Verif.DcwViewLemmas
import Verif.DcwViewProps
import Verif.OtViewLemmas
import Verif.Rr16ProbSpec
import Verif.Rr16ProbLemmas
import Verif.Rr16ProbProps
import Verif.Rr16ViewSpec
import Verif.Rr16ViewProps
import Verif.CollViewLemmas
import Verif.KkrtViewSpec
import Verif.KkrtViewLemmas
import Verif.KkrtOrderLemmas
import Verif.KkrtViewProps
import Verif.BgiBytesModel
import Verif.BgiBytesProps
import Verif.BgiKeysModel
import Verif.BgiKeysProps
import Verif.SendBufModel
import Verif.SendBufLemmas
import Verif.SendBufProps
import Verif.TagModel
import Verif.TagLemmas
import Verif.TagProps
import Verif.SpawnModel
import Verif.SpawnLemmas
import Verif.SpawnProps
import Verif.DeliverProps
import Verif.Grr18ProbProps
import Verif.PrtyOnlineProps
import Verif.PrtyShareProps
import Verif.PrtyOrderProps
import Verif.Rr17aMissProps
import Verif.Rr17bProbProps
import Verif.Rr17bViewProps
import Verif.Rr17aViewProps
import Verif.Grr18ViewProps
import Verif.ReuseRunProps
import Verif.OrderMoreProps
import Verif.PrtyFftProps
import Verif.PrtyHideProps
import Verif.PrtyPointProps
import Verif.ReinitProps
import Verif.BarrierProps
import Verif.MergeProps
import Verif.PromiseEndProps
import Verif.SizeProps
import Verif.EcdhViewProps
import Verif.PrtyViewProps
import Verif.PrtyRunProps
import Verif.PrtyErrProps
import Verif.DrrnKeysProps
import Verif.DrrnSeenProps
import Verif.DktViewProps
import Verif.Rr17aApartProps
import Verif.Rr17aForgeProps
import Verif.Grr18ForgeProps
import Verif.Rr17bForgeProps
import Verif.DcwHashProps
import Verif.Rr16HashProps
import Verif.Rr17bCloseProps
import Verif.Rr17aCloseProps
import Verif.RepeatProps
import Verif.Rr17TotalProps
import Verif.Rr17bTotalProps
import Verif.Grr18TotalProps
import Verif.PrtyHashProps
import Verif.Rr16CutSpec
import Verif.Rr16CutLemmas
import Verif.Rr16CutProps
import Verif.BenchModel
import Verif.BenchSpec
import Verif.BenchLemmas
import Verif.BenchProps
import Verif.CuckooEasyLemmas
import Verif.CuckooEasyProps
import Verif.BenchDrrnModel
import Verif.BenchDrrnProps
import Verif.BenchDrrnOneProps
import Verif.CuckooDebugModel
import Verif.CuckooDebugLemmas
import Verif.CuckooDebugProps
import Verif.BgiReinitProps
import Verif.CuckooWideSeq
import Verif.CuckooWideFail
import Verif.CuckooWideSeqProps
import Verif.CuckooWideRace
import Verif.CuckooWideRaceProps
import Verif.CountProps
import Verif.HasherDebugModel
import Verif.HasherDebugLemmas
import Verif.HasherDebugProps
import Verif.PrtySizeProps
import Verif.SCuckooBoundProps
import Verif.CuckooGroupProps
import Verif.SendBufRetProps
import Verif.SCuckooDebugModel
import Verif.SCuckooDebugProps
import Verif.CuckooFindModel
import Verif.CuckooFindProps
import Verif.BenchSeedProps
