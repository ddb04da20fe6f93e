import Verif.Props.Linalg
import Verif.Props.LinalgShape
import Verif.Props.Hankel
import Verif.Props.TIss
import Verif.Props.AuxIva
import Verif.Props.Ip2
import Verif.Props.Five
import Verif.Props.FivePhases
import Verif.Props.FiveDescent
import Verif.Props.FivePower
import Verif.Props.Wpe
import Verif.Props.Beamformer
import Verif.Props.RtfPower
import Verif.Props.Scaling
import Verif.Props.Models
import Verif.Props.FftConv
import Verif.Props.Utils
import Verif.Props.Objects
import Verif.Props.Stft
import Verif.Props.StftHop
import Verif.Props.Loader
import Verif.Props.Cli
import Verif.Props.Examples
import Verif.Props.Shape
import Verif.Props.Contrast
import Verif.Props.ContrastIp
import Verif.Props.ContrastWpe
import Verif.Props.WpeIncrease
import Verif.Props.Reorder
import Verif.Props.Rearrange
import Verif.Props.Export
import Verif.Props.Dataset
import Verif.Props.Checkpoint
import Verif.Props.Separated
import Verif.Props.Level
import Verif.Props.Training
import Verif.Props.Evaluation
import Verif.Props.Networks
import Verif.Props.NetworkSymmetry
import Verif.Props.Pipeline
import Verif.Props.ModelUse
import Verif.Props.Classes
import Verif.Props.TensorTIss
import Verif.Props.TensorAuxIva
import Verif.Props.TensorBeamformer
import Verif.Props.TensorWpe
import Verif.Props.TensorFive
import Verif.Props.TensorIp2
import Verif.Props.TensorScaling
import Verif.Props.TensorMinDist
import Verif.Props.Memory
import Verif.Props.MemoryLinalg
import Verif.Props.TensorNmf
import Verif.Props.TensorStft
import Verif.Props.TensorNetworks
import Verif.Props.DType
import Verif.Props.Device
import Verif.Props.Stored
import Verif.Props.Ilrma
import Verif.Props.LoaderConc
import Verif.Props.IpDescent
import Verif.Props.Ip2Ilrma
import Verif.Props.GlobalScale
import Verif.Props.Converge
import Verif.Props.Collate6
