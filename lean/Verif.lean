import Verif.Py
import Verif.Note
import Verif.NoteLemmas
import Verif.NoteProps
import Verif.Freq
import Verif.Signature
import Verif.SignatureProps
import Verif.Instrument
import Verif.InstrumentProps
import Verif.Events
import Verif.EventsProps
import Verif.Order
import Verif.Seq
import Verif.SeqLemmas
import Verif.SeqProps
import Verif.SeqProps2
import Verif.SortedDict
import Verif.SortedDictProps
import Verif.Sequences
import Verif.SequencesProps
import Verif.SigTableProps
import Verif.PyDict
import Verif.Graph
import Verif.GraphLemmas
import Verif.GraphProps
import Verif.GraphProps2
import Verif.GraphProps3
import Verif.GraphProps4
import Verif.FloatTree
import Verif.FloatTreeLemmas
import Verif.FloatTreeLemmas2
import Verif.FloatTreeProps
import Verif.PrettyMidi
import Verif.PrettyMidiProps
import Verif.PrettyMidiProps2
import Verif.PrettyMidiProps3
import Verif.PrettyMidiProps4
import Verif.PrettyMidiProps5
import Verif.PrettyMidiProps6
import Verif.Reader
import Verif.ReaderProps
import Verif.ReaderProps2
import Verif.ReaderProps3
import Verif.ReaderProps4
import Verif.PyStr
import Verif.Dataset
import Verif.DatasetProps
import Verif.DatasetProps2
import Verif.Shared
import Verif.SharedProps
import Verif.Transforms
import Verif.TransformsProps
import Verif.Scales
import Verif.ScalesProps
import Verif.Utils
import Verif.UtilsProps
import Verif.OneHot
import Verif.OneHotProps
import Verif.PrettyMidiProps7
import Verif.PrettyMidiProps8
import Verif.FloatTreeProps2
import Verif.FloatTreeProps3
import Verif.ExtraProps
import Verif.Heap
import Verif.HeapProps
import Verif.HeapProps2
import Verif.HeapProps3
import Verif.Times
import Verif.TimesProps
import Verif.TimesProps2
import Verif.Beats
import Verif.BeatsProps
import Verif.BeatsProps2
import Verif.DownbeatsProps
import Verif.Adjust
import Verif.AdjustProps
import Verif.AdjustProps2
import Verif.Writer
import Verif.WriterProps
import Verif.WriterProps2
import Verif.WriterProps3
import Verif.WriterProps4
import Verif.WriterProps5
import Verif.WriterProps6
import Verif.FloatTree2
import Verif.FloatTreeProps4
import Verif.Traverse
import Verif.TraverseProps
import Verif.Analysis
import Verif.AnalysisProps
import Verif.GraphExtra
import Verif.GraphProps5
import Verif.Trainers
import Verif.TrainersProps
import Verif.NoteExtra
import Verif.NoteExtraProps
import Verif.PrettyMidiProps9
import Verif.PrettyMidiProps10
import Verif.Save
import Verif.SaveProps
import Verif.SeqExtra
import Verif.SeqExtraProps
import Verif.Pipeline
import Verif.PipelineProps
import Verif.PipelineProps2
import Verif.PipelineProps3
import Verif.RawFiles
import Verif.RawFilesProps
import Verif.Float64
import Verif.Float64Lemmas
import Verif.FloatOps
import Verif.FloatOpsProps
import Verif.FloatClockProps
import Verif.FloatClockProps2
import Verif.FloatSave
import Verif.FloatSaveProps
import Verif.BeatStart
import Verif.BeatStartProps
import Verif.FloatGrid
import Verif.FloatGridProps
import Verif.TreeScore
import Verif.TreeScoreProps
import Verif.FloatFile
import Verif.FloatFileProps
import Verif.FloatFileProps2
import Verif.FloatFileProps3
import Verif.FloatShift
import Verif.FloatShiftProps
import Verif.FloatVelocity
import Verif.FloatVelocityProps
import Verif.EventOrder
import Verif.EventOrderProps
import Verif.IntervalDict
import Verif.IntervalDictProps
import Verif.BadFileProps
import Verif.HashOrder
import Verif.HashOrderProps
import Verif.Gcn
import Verif.GcnProps
import Verif.Gin
import Verif.GinProps
import Verif.SongLoop
import Verif.SongLoopProps
import Verif.EndToEnd
import Verif.EndToEndProps
import Verif.FeatureProps
import Verif.GcnNets
import Verif.GcnNetsProps
import Verif.GatLstm
import Verif.GatProps
import Verif.LstmProps
import Verif.TallyProps
import Verif.GaeRuns
import Verif.GaeRunsProps
import Verif.IvOrder
import Verif.IvOrderProps
import Verif.NoteNames
import Verif.NoteNamesProps
import Verif.TempoTwo
import Verif.TempoTwoProps
import Verif.EdgeCheck
import Verif.EdgeCheckProps
import Verif.FromFile
import Verif.FromFileProps
import Verif.DataCheck
import Verif.DataCheckProps
import Verif.FloatTol
import Verif.FloatTolProps
import Verif.GraphGen
import Verif.GraphGenProps
import Verif.SelfCheck
import Verif.SelfCheckProps
import Verif.BadFileFloatProps
import Verif.OptionFreeProps
import Verif.VelScale
import Verif.VelScaleProps
import Verif.PlotScript
import Verif.PlotScriptProps
import Verif.FloatUtils
import Verif.FloatUtilsProps
import Verif.Example01
import Verif.Example01Props
import Verif.Example02
import Verif.Example02Props
import Verif.TopkPool
import Verif.TopkPoolProps
import Verif.MetricPlot
import Verif.MetricPlotProps
import Verif.NewSeqs
import Verif.NewSeqsProps
