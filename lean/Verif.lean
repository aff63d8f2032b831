import Verif.Laya.ParseProps
import Verif.Laya.HttpProps
import Verif.Laya.ServerProps
import Verif.Jp2.BioProps
import Verif.Jp2.T2CodesProps
import Verif.Jp2.CioProps
import Verif.Jp2.MathProps
import Verif.Jp2.MctProps
import Verif.Jp2.DwtProps
import Verif.Jp2.TgtProps
import Verif.Jp2.MqcProps
import Verif.Jp2.SparseProps
import Verif.Jp2.StreamProps
import Verif.Jp2.PiProps
import Verif.Jp2.T1Props
import Verif.Jp2.T1StdProps
import Verif.Jp2.TcdProps
import Verif.Jp2.T2Props
import Verif.Jp2.T2SafeProps
import Verif.Jp2.T1SafeProps
import Verif.Jp2.T2SkipProps
import Verif.Jp2.PiEncProps
import Verif.Jp2.T2TileProps
import Verif.Jp2.HdrProps
import Verif.Jp2.HdrStdProps
import Verif.Jp2.BoxProps
import Verif.Jp2.BoxColorProps
import Verif.Jp2.BoxStdProps
import Verif.Jp2.BoxCutProps
import Verif.Jp2.TpProps
import Verif.Jp2.TpFullProps
import Verif.Jp2.TpOrderProps
import Verif.Jp2.TpWriteProps
import Verif.Jp2.SetupProps
import Verif.Jp2.SetupMoreProps
import Verif.Jp2.SetupProfileProps
import Verif.Jp2.AreaProps
import Verif.Jp2.AreaOne
import Verif.Jp2.AreaFile
import Verif.Jp2.PipeProps
import Verif.Jp2.PipeLossProps
import Verif.Jp2.CutProps
import Verif.Jp2.CodecProps
import Verif.Jp2.ExtraProps
import Verif.Jp2.PlainProps
import Verif.Jp2.TileOutProps
import Verif.Jp2.PocCheckProps
import Verif.Jp2.PltRoomProps
import Verif.Jp2.DwtPartProps
import Verif.Jp2.RoiProps
import Verif.Jp2.OwnProps
import Verif.Jp2.FixedProps
import Verif.Jp2.InvertProps
import Verif.Axioms
