import Verif.ArrObj.CaseProps
import Verif.ArrObj.Model
import Verif.ArrObj.Props
import Verif.ArrObj.StateProps
import Verif.Attrs.Lemmas
import Verif.Attrs.Model
import Verif.Attrs.Props
import Verif.Batch.Lemmas
import Verif.Batch.Model
import Verif.Batch.Props
import Verif.Binned.Array
import Verif.Binned.AverageProps
import Verif.Binned.BinLemmas
import Verif.Binned.GetProps
import Verif.Binned.IndexLemmas
import Verif.Binned.Lemmas
import Verif.Binned.MaskProps
import Verif.Binned.Model
import Verif.Binned.Props
import Verif.Binned.RebinLemmas
import Verif.Binned.RebinProps
import Verif.Binned.ReindexLemmas
import Verif.Binned.SelectProps
import Verif.Binned.TakeLemmas
import Verif.Bounds.Lemmas
import Verif.Bounds.Model
import Verif.Bounds.Props
import Verif.BoxPairs.Model
import Verif.BoxPairs.Props
import Verif.BoxTpcf.BinProps
import Verif.BoxTpcf.CaseProps
import Verif.BoxTpcf.CrossProps
import Verif.BoxTpcf.GridProps
import Verif.BoxTpcf.Lemmas
import Verif.BoxTpcf.Model
import Verif.BoxTpcf.Props
import Verif.BoxTpcf.ScaleProps
import Verif.BoxTpcf.SwapProps
import Verif.BoxTpcf.UnitCaseProps
import Verif.BoxTpcf.UnitProps
import Verif.BoxTpcf.ValueProps
import Verif.Capture.BlockProps
import Verif.Capture.EndProps
import Verif.Capture.Lemmas
import Verif.Capture.Model
import Verif.Capture.OutProps
import Verif.Capture.Props
import Verif.Capture.RunProps
import Verif.CatMesh.CaseProps
import Verif.CatMesh.Model
import Verif.CatMesh.Props
import Verif.CatMesh.RowProps
import Verif.CatMesh.StateProps
import Verif.CatObj.AttrProps
import Verif.CatObj.CaseProps
import Verif.CatObj.DerivProps
import Verif.CatObj.IndexProps
import Verif.CatObj.Model
import Verif.CatObj.Props
import Verif.CatObj.RankProps
import Verif.CatObj.RunProps
import Verif.CatObj.StateProps
import Verif.CatObj.WfProps
import Verif.Catalog.Model
import Verif.Catalog.Props
import Verif.Cgm.Lemmas
import Verif.Cgm.Model
import Verif.Cgm.Props
import Verif.CgmObj.CaseProps
import Verif.CgmObj.Model
import Verif.CgmObj.ObjProps
import Verif.CgmObj.Props
import Verif.CgmObj.SymCaseProps
import Verif.CgmObj.SymProps
import Verif.Columns.Model
import Verif.Columns.Props
import Verif.Comm.Basic
import Verif.Comp.Model
import Verif.Comp.Props
import Verif.Concat.Model
import Verif.Concat.Props
import Verif.ConvObj.Model
import Verif.ConvObj.MoreProps
import Verif.ConvObj.Props
import Verif.ConvObj.StateProps
import Verif.Convpower.Lemmas
import Verif.Convpower.Model
import Verif.Convpower.Props
import Verif.Corr.Model
import Verif.Corr.Props
import Verif.Cosmo.Lemmas
import Verif.Cosmo.Model
import Verif.Cosmo.Props
import Verif.CosmoObj.CaseProps
import Verif.CosmoObj.Model
import Verif.CosmoObj.NewProps
import Verif.CosmoObj.Props
import Verif.CosmoObj.StateProps
import Verif.Csv.Model
import Verif.Csv.Props
import Verif.CsvObj.CaseProps
import Verif.CsvObj.Model
import Verif.CsvObj.MoreProps
import Verif.CsvObj.Props
import Verif.CsvObj.ReadProps
import Verif.Dist.BinLemmas
import Verif.Dist.Lemmas
import Verif.Dist.Model
import Verif.Dist.Props
import Verif.Dist.UniqueLemmas
import Verif.Ehu.Lemmas
import Verif.Ehu.Model
import Verif.Ehu.Props
import Verif.Estim.Model
import Verif.Estim.Props
import Verif.FftObj.DefaultProps
import Verif.FftObj.Model
import Verif.FftObj.PolesProps
import Verif.FftObj.Props
import Verif.FftObj.RangeProps
import Verif.FftObj.WideMuProps
import Verif.FftObj.WidePolesProps
import Verif.FftObj.WideProps
import Verif.Fiber.GroupLemmas
import Verif.Fiber.Lemmas
import Verif.Fiber.Model
import Verif.Fiber.Props
import Verif.FiberObj.CaseProps
import Verif.FiberObj.Model
import Verif.FiberObj.Props
import Verif.FiberObj.SymProps
import Verif.FileCat.Model
import Verif.FileCat.Props
import Verif.FileCatObj.CaseProps
import Verif.FileCatObj.InvProps
import Verif.FileCatObj.Model
import Verif.FileCatObj.Props
import Verif.FileIO.Model
import Verif.FileIO.Props
import Verif.FileObj.ArrayProps
import Verif.FileObj.CaseProps
import Verif.FileObj.Model
import Verif.FileObj.OpenProps
import Verif.FileObj.Props
import Verif.Filters.Model
import Verif.Filters.Props
import Verif.Fkp.Lemmas
import Verif.Fkp.Model
import Verif.Fkp.Props
import Verif.Fkp.UnitProps
import Verif.Fof.Labels
import Verif.Fof.LabelsLemmas
import Verif.Fof.LabelsProps
import Verif.Fof.Lemmas
import Verif.Fof.Mass
import Verif.Fof.MassProps
import Verif.Fof.MergeProps
import Verif.Fof.Model
import Verif.Fof.Props
import Verif.FofObj.CaseProps
import Verif.FofObj.Model
import Verif.FofObj.Props
import Verif.FofObj.SymCaseProps
import Verif.FofObj.SymProps
import Verif.FrontPad.Lemmas
import Verif.FrontPad.Model
import Verif.FrontPad.Props
import Verif.Gadget.Model
import Verif.Gadget.Props
import Verif.Gather.Lemmas
import Verif.Gather.Model
import Verif.Gather.Props
import Verif.Growth.Model
import Verif.Growth.Props
import Verif.HaloObj.CaseProps
import Verif.HaloObj.Model
import Verif.HaloObj.Props
import Verif.HaloObj.TableProps
import Verif.Hdf.Model
import Verif.Hdf.Props
import Verif.Hermitian.Model
import Verif.Hermitian.Props
import Verif.Json.Lemmas
import Verif.Json.Model
import Verif.Json.Props
import Verif.Kd.Model
import Verif.Kd.Props
import Verif.Kd.SymProps
import Verif.LogObj.CaseProps
import Verif.LogObj.Model
import Verif.LogObj.MoreProps
import Verif.LogObj.Props
import Verif.Mesh.Model
import Verif.Mesh.Props
import Verif.MeshFile.Model
import Verif.MeshFile.Props
import Verif.MeshObj.AttrProps
import Verif.MeshObj.CaseProps
import Verif.MeshObj.Model
import Verif.MeshObj.Props
import Verif.MeshObj.StateProps
import Verif.MeshPower.CaseProps
import Verif.MeshPower.Model
import Verif.MeshPower.Props
import Verif.MeshPower.ReconProps
import Verif.Mock.Lemmas
import Verif.Mock.Model
import Verif.Mock.Props
import Verif.Multipoles.Lemmas
import Verif.Multipoles.Model
import Verif.Multipoles.Props
import Verif.Nbody.Model
import Verif.Nbody.Props
import Verif.Options.Model
import Verif.Options.Props
import Verif.Paint.Model
import Verif.Paint.Props
import Verif.Pairs.BoxProps
import Verif.Pairs.Lemmas
import Verif.Pairs.Model
import Verif.Pairs.Props
import Verif.PcfObj.ColumnProps
import Verif.PcfObj.CrossProps
import Verif.PcfObj.Model
import Verif.PcfObj.Props
import Verif.Pipe.CaseProps
import Verif.Pipe.CrossProps
import Verif.Pipe.DirectProps
import Verif.Pipe.Model
import Verif.Pipe.Props
import Verif.Pkmu.Lemmas
import Verif.Pkmu.Model
import Verif.Pkmu.Props
import Verif.Plain.CaseProps
import Verif.Plain.Lemmas
import Verif.Plain.LoopProps
import Verif.Plain.Model
import Verif.Plain.MoreProps
import Verif.Plain.Props
import Verif.Plain.TwoProps
import Verif.Populate.Model
import Verif.Populate.Props
import Verif.Power.Model
import Verif.Power.Props
import Verif.ProjPower.Model
import Verif.ProjPower.Props
import Verif.ProjPower.SymProps
import Verif.ProjPower.WideProps
import Verif.Project.Model
import Verif.Project.Props
import Verif.PySlice.Basic
import Verif.PySlice.Props
import Verif.Recon.Lemmas
import Verif.Recon.Model
import Verif.Recon.Props
import Verif.Recon.ReadProps
import Verif.Recon.SymCaseProps
import Verif.Recon.SymProps
import Verif.ReconObj.Model
import Verif.ReconObj.ProgProps
import Verif.ReconObj.Props
import Verif.Rng.Lemmas
import Verif.Rng.Model
import Verif.Rng.Props
import Verif.RngObj.LoopProps
import Verif.RngObj.Model
import Verif.RngObj.ProgProps
import Verif.RngObj.Props
import Verif.RngObj.WeightProps
import Verif.SaveObj.CaseProps
import Verif.SaveObj.FailProps
import Verif.SaveObj.Lemmas
import Verif.SaveObj.LoadProps
import Verif.SaveObj.MixProps
import Verif.SaveObj.Model
import Verif.SaveObj.PowerProps
import Verif.SaveObj.ProgProps
import Verif.SaveObj.Props
import Verif.SaveObj.RoundProps
import Verif.Seeds.Model
import Verif.Seeds.Props
import Verif.SelCoord.Model
import Verif.SelCoord.Props
import Verif.Setup.CaseProps
import Verif.Setup.Cluster
import Verif.Setup.ClusterProps
import Verif.Setup.Model
import Verif.Setup.Props
import Verif.Setup.ScopeProps
import Verif.Sky.Model
import Verif.Sky.Props
import Verif.Slabs.Model
import Verif.Slabs.Props
import Verif.Slicing.Model
import Verif.Slicing.Props
import Verif.Sort.Model
import Verif.Sort.Props
import Verif.SpecObj.MeshProps
import Verif.SpecObj.Model
import Verif.SpecObj.MoreProps
import Verif.SpecObj.Props
import Verif.Species.Model
import Verif.Species.Props
import Verif.SpeciesMesh.Model
import Verif.SpeciesMesh.Props
import Verif.StatObj.CaseProps
import Verif.StatObj.ItemProps
import Verif.StatObj.Lemmas
import Verif.StatObj.Model
import Verif.StatObj.OwnProps
import Verif.StatObj.Props
import Verif.StatObj.RunProps
import Verif.StatObj.SetProps
import Verif.StatObj.ShareProps
import Verif.StatObj.StateProps
import Verif.SubVol.Model
import Verif.SubVol.Props
import Verif.SurvPairs.Model
import Verif.SurvPairs.Props
import Verif.SurvTpcf.CaseProps
import Verif.SurvTpcf.Lemmas
import Verif.SurvTpcf.Model
import Verif.SurvTpcf.MoreProps
import Verif.SurvTpcf.Props
import Verif.SurvTpcf.ValueProps
import Verif.SurvTpcf.WedgeProps
import Verif.SurvTpcf.WpProps
import Verif.Survey.AttrProps
import Verif.Survey.CaseProps
import Verif.Survey.DirectProps
import Verif.Survey.Model
import Verif.Survey.MonoProps
import Verif.Survey.MoreProps
import Verif.Survey.PolesProps
import Verif.Survey.Props
import Verif.Survey.RangeProps
import Verif.Survey.ScaleProps
import Verif.Survey.ShiftProps
import Verif.Survey.WideProps
import Verif.TaskMgr.Lemmas
import Verif.TaskMgr.Model
import Verif.TaskMgr.Props
import Verif.TaskStop.Model
import Verif.TaskStop.Props
import Verif.Tpcf.Lemmas
import Verif.Tpcf.Model
import Verif.Tpcf.Props
import Verif.TpcfObj.Cache
import Verif.TpcfObj.CacheProps
import Verif.TpcfObj.CaseProps
import Verif.TpcfObj.Lemmas
import Verif.TpcfObj.Model
import Verif.TpcfObj.MoreProps
import Verif.TpcfObj.Props
import Verif.TpcfObj.Saved
import Verif.TpcfObj.SavedProps
import Verif.TpcfObj.SkySymProps
import Verif.TpcfObj.SymCaseProps
import Verif.TpcfObj.SymProps
import Verif.Uedges.Model
import Verif.Uedges.Props
import Verif.Wget.CaseProps
import Verif.Wget.DownProps
import Verif.Wget.Model
import Verif.Wget.Props
import Verif.Wget.SafeProps
import Verif.Wget.TreeProps
import Verif.Xi.Model
import Verif.Xi.Props
import Verif.Ylm.Lemmas
import Verif.Ylm.Model
import Verif.Ylm.Props
import Verif.Zel.BesselProps
import Verif.Zel.DispProps
import Verif.Zel.Model
import Verif.Zel.Props
import Verif.Zhist.Model
import Verif.Zhist.Props
import Verif.Zhist.Scott
import Verif.Zhist.ScottProps
import Verif.ZhistObj.Model
import Verif.ZhistObj.ProgProps
import Verif.ZhistObj.Props
import Verif.ZhistObj.SymProps
