import Verif.Lemmas.Base
import Verif.Lemmas.Chunks
import Verif.Model.Cloud
import Verif.Props.C01_C04
import Verif.Props.C03_exact
import Verif.Props.C05_C10
import Verif.Spec.Column
import Verif.Lemmas.Column
import Verif.Lemmas.StreamFull
import Verif.Props.C13_C17
import Verif.Lemmas.CloudMain
import Verif.Lemmas.Footprint
import Verif.Lemmas.Reuse
import Verif.Lemmas.CloudSize
import Verif.Lemmas.Bridge
import Verif.Lemmas.MemSafe
import Verif.Lemmas.MemSafeV5
import Verif.Spec.Cloud
import Verif.Props.C18_C20
import Verif.Lemmas.OneField
import Verif.Props.C21_C22
import Verif.Lemmas.ManyFields
import Verif.Props.C18_many
import Verif.Lemmas.Skip
import Verif.Lemmas.SkipV2
import Verif.Model.Pcl
import Verif.Props.Witness
import Verif.Props.C31_C46_C48
import Verif.Props.C31_V2
import Verif.Model.Text
import Verif.Model.Yaml
import Verif.Model.Header
import Verif.Spec.Header
import Verif.Lemmas.Yaml
import Verif.Lemmas.YamlTrip
import Verif.Lemmas.Header
import Verif.Lemmas.HeaderSafe
import Verif.Props.C25_C28
import Verif.Lemmas.Framing
import Verif.Lemmas.DecodeSafe
import Verif.Lemmas.Unfold
import Verif.Lemmas.DecodeSafeV5
import Verif.Props.C29_C30
import Verif.Lemmas.Fresh
import Verif.Lemmas.Prefix
import Verif.Props.C49_C50
import Verif.Props.C51_C53
import Verif.Model.Threads
import Verif.Spec.Threads
import Verif.Lemmas.Threads
import Verif.Lemmas.ThreadsLive
import Verif.Lemmas.ThreadsLink
import Verif.Props.C32_C35
import Verif.Props.C36
import Verif.Props.C37
import Verif.Props.C38_C40
import Verif.Props.C41
import Verif.Props.C42
import Verif.Props.C44
import Verif.Props.C45
import Verif.Props.C47
import Verif.Model.IEEE
import Verif.Lemmas.IEEE
import Verif.Lemmas.IEEEOps
import Verif.Lemmas.IEEEQuant
import Verif.Lemmas.IEEEStable
import Verif.Lemmas.IEEELink
import Verif.Lemmas.IEEENearest
import Verif.Spec.Float
import Verif.Spec.FloatCloud
import Verif.Props.C11_C12
import Verif.Props.C11_cloud
import Verif.Model.Wasm
import Verif.Props.C54_C57
import Verif.Lemmas.RosTrip
import Verif.Model.Mcap
import Verif.Spec.Mcap
import Verif.Lemmas.Mcap
import Verif.Props.C58_C59
import Verif.Spec.Text
import Verif.Lemmas.Text
import Verif.Spec.Yaml
import Verif.Lemmas.YamlOutline
import Verif.Lemmas.YamlDoc
import Verif.Props.C60
import Verif.Model.Plugin
import Verif.Props.C61_C62
import Verif.Props.C63
import Verif.Lemmas.Room
import Verif.Props.C64
import Verif.Props.C65_C66
import Verif.Props.C67
import Verif.Props.C68
import Verif.Lemmas.Alike
import Verif.Lemmas.AlikeCloud
import Verif.Props.C69
import Verif.Lemmas.Tight
import Verif.Props.C18_sizes
import Verif.Props.C70
import Verif.Props.C71
import Verif.Props.C72
import Verif.Props.C73
import Verif.Props.C74
import Verif.Props.C75
import Verif.Props.C76
import Verif.Props.C77
import Verif.Props.C78
import Verif.Props.C79
import Verif.Props.C80
import Verif.Props.C81
import Verif.Props.C82
import Verif.Model.Dense
import Verif.Lemmas.Dense
import Verif.Props.C83
import Verif.Model.Word
import Verif.Lemmas.Word
import Verif.Props.C84
import Verif.Model.WordEnc
import Verif.Lemmas.WordEnc
import Verif.Props.C85
import Verif.Lemmas.Cost
import Verif.Lemmas.CostOne
import Verif.Spec.Shape
import Verif.Lemmas.CostColumn
import Verif.Props.C86
import Verif.Lemmas.Ends
import Verif.Props.C87
import Verif.Model.BagTool
import Verif.Lemmas.BagTool
import Verif.Spec.BagTool
import Verif.Props.C88
import Verif.Props.C88_dirs
import Verif.Props.C89
import Verif.Spec.Format
import Verif.Lemmas.Format
import Verif.Lemmas.FormatCloud
import Verif.Lemmas.FormatV5
import Verif.Props.C90
import Verif.Spec.FormatHeader
import Verif.Props.C91
import Verif.Lemmas.FormatAny
import Verif.Lemmas.FormatRead
import Verif.Props.C92
import Verif.Model.Cutter
import Verif.Props.C93
import Verif.Lemmas.Volume
import Verif.Props.C94
import Verif.Lemmas.IEEEOrder
import Verif.Props.C95
import Verif.Lemmas.Forced
import Verif.Props.C96
import Verif.Props.C68_hand
import Verif.Props.C79_replay
import Verif.Props.C89_average
import Verif.Lemmas.Miscount
import Verif.Props.C97
import Verif.Spec.Shared
import Verif.Lemmas.Shared
import Verif.Props.C98
import Verif.Props.C99
import Verif.Lemmas.IEEELarge
import Verif.Lemmas.Coded
import Verif.Props.C100
import Verif.Props.C101
import Verif.Props.C102
import Verif.Props.C103
import Verif.Props.C104
import Verif.Props.C105
import Verif.Props.C106
import Verif.Props.C107
