import Verif.Props.Padding
import Verif.Props.Cbc
import Verif.Spec.Gcm
import Verif.Props.Gcm
import Verif.Props.GcmParallel
import Verif.Props.GcmFile
import Verif.Props.Sm4
import Verif.Props.Sm3
import Verif.Spec.Gf2
import Verif.Model.Matrix
import Verif.Lemmas.Gf2
import Verif.Props.Matrix
import Verif.Model.Shuffle
import Verif.Model.Wbsm4Tables
import Verif.Model.Wbsm4
import Verif.Model.Wbsm4File
import Verif.Model.SeTables
import Verif.Model.SeWbsm4
import Verif.Lemmas.Wb
import Verif.Lemmas.SeHints
import Verif.Lemmas.SeSelfEq
import Verif.Props.Shuffle
import Verif.Props.Wbsm4
import Verif.Props.Wbsm4File
import Verif.Props.SeWbsm4
import Verif.Spec.Aes
import Verif.Model.Wbaes
import Verif.Lemmas.Wbaes
import Verif.Props.Wbaes
import Verif.Lemmas.AesEval
import Verif.Model.WbGcm
import Verif.Props.WbGcm
import Verif.Spec.Fpe
import Verif.Model.Fpe
import Verif.Lemmas.Fpe
import Verif.Props.Fpe
import Verif.Props.Fpe3
import Verif.Props.FpeNist
import Verif.Spec.FpeMac
import Verif.Props.FpeMac
import Verif.Spec.FpeApp
import Verif.Model.FpeApp
import Verif.Lemmas.FpeApp
import Verif.Lemmas.FpeCn
import Verif.Props.FpeApp
import Verif.Props.FpeCn
import Verif.Model.Random
import Verif.Props.Random
import Verif.Model.Keystore
import Verif.Props.Keystore
import Verif.Spec.AesInv
import Verif.Model.AesWrap
import Verif.Props.AesWrap
import Verif.Model.FpeAppInit
import Verif.Props.FpeAppInit
import Verif.Model.Api
import Verif.Props.Api
import Verif.Model.WbGcmFile
import Verif.Props.WbGcmFile
import Verif.Model.Wrand
import Verif.Props.Wrand
import Verif.Model.GcmMem
import Verif.Model.CbcMem
import Verif.Props.CbcLen
import Verif.Props.CbcMem
import Verif.Props.CbcMemMore
import Verif.Props.GcmMem
import Verif.Model.Wbsm4Bytes
import Verif.Props.Wbsm4Bytes
import Verif.Model.Udf
import Verif.Props.Udf
import Verif.Spec.WbExtract
import Verif.Props.WbExtract
import Verif.Lemmas.AesSpan
import Verif.Spec.WbaesExtract
import Verif.Props.WbaesExtract
import Verif.Props.WbGcmExtract
import Verif.Spec.SeExtract
import Verif.Props.SeExtract
import Verif.Model.MatrixMore
import Verif.Lemmas.Gf2More
import Verif.Props.MatrixMore
import Verif.Model.Heap
import Verif.Spec.Ownership
import Verif.Props.Heap
import Verif.Model.Seed
import Verif.Props.Seed
import Verif.Lemmas.GfField
import Verif.Spec.GcmAuth
import Verif.Props.GcmAuth
import Verif.Model.WbGcmMem
import Verif.Props.WbGcmUse
import Verif.Spec.FpeAppNist
import Verif.Props.FpeAppNist
import Verif.Spec.Ff3Long
import Verif.Lemmas.FeistelPair
import Verif.Props.Ff3Long
import Verif.Props.Ff3LongApp
import Verif.Props.FpeMacWeak
import Verif.Spec.Ff3Slide
import Verif.Props.Ff3Slide
import Verif.Spec.FpeChars
import Verif.Lemmas.FeistelFree
import Verif.Props.FpeChars
import Verif.Props.FpeCharsApp
import Verif.Spec.Float64
import Verif.Lemmas.LogApprox
import Verif.Props.FpeFloat
import Verif.Props.FpeShort
import Verif.Model.KeyArg
import Verif.Props.KeyArg
import Verif.Spec.GcmIv
import Verif.Props.GcmIv
import Verif.Props.GcmCommit
import Verif.Props.CbcOracle
import Verif.Props.Sm3Reuse
import Verif.Props.MatrixRandom
import Verif.Model.Sm4Trace
import Verif.Props.Sm4Trace
import Verif.Model.GcmTrace
import Verif.Props.GcmTrace
import Verif.Model.Oom
import Verif.Props.Oom
import Verif.Model.FpeMem
import Verif.Props.FpeMem
import Verif.Model.FpeMacCtx
import Verif.Props.FpeMacCtx
import Verif.Model.Wbsm4Disk
import Verif.Props.Wbsm4Disk
import Verif.Model.GcmFileDisk
import Verif.Props.GcmFileMore
import Verif.Model.GcmParallelLen
import Verif.Props.GcmLen
import Verif.Props.FpeSample
import Verif.Props.GcmOrder
import Verif.Props.CbcIv
import Verif.Props.FpeSeparate
import Verif.Props.Ff3SlideMore
import Verif.Props.FpeEven
import Verif.Model.WbGcmFileDisk
import Verif.Props.WbGcmFileMore
import Verif.Model.Endian
import Verif.Spec.Endian
import Verif.Lemmas.Endian
import Verif.Props.Endian
import Verif.Props.EndianSe
import Verif.Props.EndianAes
import Verif.Model.EndianFile
import Verif.Props.EndianFile
import Verif.Props.EndianKey
import Verif.Model.Docs
import Verif.Props.DocsCn
import Verif.Props.Docs
import Verif.Model.Tests
import Verif.Props.Tests
import Verif.Props.GcmLong
import Verif.Model.FpeRelease
import Verif.Props.FpeRelease
import Verif.Model.WbTrace
import Verif.Spec.WbTrace
import Verif.Props.Sm4Span
import Verif.Props.WbTrace
import Verif.Props.WbTraceMore
import Verif.Model.CbcAlign
import Verif.Spec.Align
import Verif.Props.CbcAlign
import Verif.Model.CbcIvMem
import Verif.Props.CbcIvMem
import Verif.Model.WbaesTrace
import Verif.Spec.WbaesTrace
import Verif.Props.WbaesTrace
import Verif.Model.GcmShared
import Verif.Props.GcmShared
import Verif.Model.FpeAppRelease
import Verif.Props.FpeAppRelease
import Verif.Model.CipherFail
import Verif.Props.CipherFail
import Verif.Props.CipherFailFile
import Verif.Props.CipherFailCbc
import Verif.Model.Perform
import Verif.Props.Perform
import Verif.Props.PerformMore
import Verif.Model.GcmTagLong
import Verif.Props.GcmTagLong
import Verif.Model.FpeMacShared
import Verif.Props.FpeMacShared
import Verif.Model.FpeFail
import Verif.Props.FpeFail
import Verif.Model.FpeMacFail
import Verif.Props.FpeMacFail
import Verif.Props.SeedNumbers
import Verif.Props.PermRandom
import Verif.Props.DummyCount
import Verif.Props.MaskKnown
import Verif.Model.FpeAppFail
import Verif.Props.FpeAppFail
import Verif.Props.FpeAnyFault
import Verif.Props.CbcForge
import Verif.Props.FileForge
import Verif.Props.Sm3Collide
import Verif.Props.OneKey
import Verif.Model.FileThreads
import Verif.Props.FileThreads
import Verif.Props.UdfTable
