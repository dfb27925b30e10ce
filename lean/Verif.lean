import Verif.Props.Rng
import Verif.Model.Tracer
import Verif.Props.Tracer
import Verif.Props.NextHit
import Verif.Props.Dist
import Verif.Model.Dist
import Verif.Props.Optics
import Verif.Props.Phase
import Verif.Props.Material
import Verif.Props.Geometry
import Verif.Props.Shapes
import Verif.Props.Normals
import Verif.Props.Node
import Verif.Props.Transformable
import Verif.Props.Tally
import Verif.Props.EventLog
import Verif.Props.Budget
import Verif.Props.RecTables
import Verif.Props.EngineTally
import Verif.Props.Library
import Verif.Props.LibraryPath
import Verif.Props.Simulate
import Verif.Props.Database
import Verif.Props.Light
import Verif.Props.Renderer
import Verif.Props.Document
import Verif.Props.Studio
import Verif.Props.StudioAdd
import Verif.Props.StudioDelete
import Verif.Props.StudioScrub
import Verif.Props.StudioEdit
import Verif.Props.StudioRun
import Verif.Props.Lsc
import Verif.Props.Agreement
import Verif.Props.AgreementDemo
import Verif.Props.Contains
import Verif.Props.Compile
import Verif.Model.Schema
import Verif.Model.SceneFile
import Verif.Spec.SceneFile
import Verif.Lemmas.SceneTree
import Verif.Lemmas.SceneFile
import Verif.Props.SceneFile
import Verif.Lemmas.SceneLoads
import Verif.Lemmas.SceneRecorders
import Verif.Props.SceneLoads
import Verif.Spec.Directions
import Verif.Props.Directions
import Verif.Props.Sampling
import Verif.Model.FileScene
import Verif.Spec.FileScene
import Verif.Props.FileScene
import Verif.Props.LastSegment
import Verif.Model.Dyes
import Verif.Model.Component
import Verif.Model.LscScene
import Verif.Spec.Component
import Verif.Spec.LscScene
import Verif.Props.Dyes
import Verif.Props.Component
import Verif.Props.LscScene
import Verif.Spec.Chance
import Verif.Lemmas.Chance
import Verif.Spec.Paths
import Verif.Props.PathLaw
import Verif.Props.Slab
import Verif.Props.AutoRecord
import Verif.Props.StudioLive
import Verif.Props.StudioPlot
import Verif.Model.StudioView
import Verif.Props.StudioView
import Verif.Props.StudioMove
import Verif.Model.DatabaseRun
import Verif.Props.DatabaseRun
import Verif.Lemmas.EscapeCone
import Verif.Props.Waveguide
import Verif.Props.EngineWaveguide
import Verif.Spec.Arranged
import Verif.Props.Inside
import Verif.Props.InsideDemo
import Verif.Model.StudioFiles
import Verif.Props.StudioFiles
import Verif.Spec.Batch
import Verif.Lemmas.Batch
import Verif.Props.Estimates
import Verif.Model.CustomSurface
import Verif.Props.CustomSurface
import Verif.Model.Meshcat
import Verif.Props.Meshcat
import Verif.Spec.Stream
import Verif.Model.Stream
import Verif.Lemmas.Stream
import Verif.Props.Stream
import Verif.Props.StreamDemo
import Verif.Spec.Fate
import Verif.Lemmas.Tame
import Verif.Lemmas.TameScene
import Verif.Lemmas.TameTrace
import Verif.Props.Measurable
import Verif.Props.MeasurableDemo
import Verif.Spec.Suited
import Verif.Props.Ending
import Verif.Props.EndingDemo
import Verif.Spec.Moved
import Verif.Lemmas.Alike
import Verif.Props.Moved
import Verif.Props.Group
import Verif.Props.MovedEngine
import Verif.Props.MovedDemo
import Verif.Spec.Variants
import Verif.Lemmas.Embed
import Verif.Props.Variants
import Verif.Props.VariantsDemo
import Verif.Props.VariantsEngine
import Verif.Lemmas.HitChoice
import Verif.Props.VariantsKernel
import Verif.Props.VariantsKernelDemo
import Verif.Spec.Scaled
import Verif.Props.Scaled
import Verif.Props.ScaledDemo
import Verif.Lemmas.EngineHit
import Verif.Spec.Reverse
import Verif.Props.Reverse
import Verif.Props.ReverseDemo
import Verif.Model.Spectrum
import Verif.Spec.Spectrum
import Verif.Props.Spectrum
import Verif.Model.Rotations
import Verif.Spec.Rotations
import Verif.Props.Rotations
import Verif.Props.Quaternions
import Verif.Props.EulerBack
import Verif.Props.FromMatrix
import Verif.Props.FromMatrixMore
import Verif.Props.RotationParts
import Verif.Lemmas.Renewal
import Verif.Spec.Reemission
import Verif.Lemmas.Reemission
import Verif.Lemmas.Thinning
import Verif.Props.Reemission
import Verif.Props.ReemissionDemo
import Verif.Spec.Writes
import Verif.Lemmas.TameKernel
import Verif.Props.EngineChance
import Verif.Props.EngineChanceDemo
import Verif.Spec.EngineReemission
import Verif.Lemmas.EngineThinning
import Verif.Props.EngineReemission
import Verif.Props.EngineReemissionDemo
import Verif.Lemmas.Sphere
import Verif.Lemmas.IsotropicLaw
import Verif.Lemmas.TurnedPhase
import Verif.Lemmas.TurnedTrace
import Verif.Lemmas.TurnedLaw
import Verif.Lemmas.TurnedAgreement
import Verif.Spec.SameLaw
import Verif.Props.SameLaw
import Verif.Props.SameLawDemo
import Verif.Model.DatabaseFile
import Verif.Spec.FileName
import Verif.Props.DatabaseFile
import Verif.Tests.Geometry
import Verif.Tests.Nodes
import Verif.Tests.Tracer
import Verif.Model.Matrices
import Verif.Spec.Planes
import Verif.Props.Matrices
import Verif.Props.RecorderLaw
import Verif.Props.EngineSlab
import Verif.Spec.LightOrder
import Verif.Props.LightOrder
import Verif.Model.StudioList
import Verif.Props.StudioList
import Verif.Spec.Parts
import Verif.Lemmas.Parts
import Verif.Props.Parts
import Verif.Props.PartsDemo
import Verif.Spec.ComponentOrder
import Verif.Lemmas.OrderLaw
import Verif.Lemmas.OrderTrace
import Verif.Props.ComponentOrder
import Verif.Props.LightMix
import Verif.Spec.Resume
import Verif.Props.Resume
import Verif.Spec.Limits
import Verif.Props.Limits
import Verif.Props.Passive
import Verif.Model.EventCounts
import Verif.Props.EventCounts
import Verif.Model.Mesh
import Verif.Spec.Mesh
import Verif.Props.Mesh
import Verif.Props.Angle
import Verif.Spec.Markov
import Verif.Props.Markov
import Verif.Model.StudioRun
import Verif.Spec.StudioRun
import Verif.Props.StudioRun
import Verif.Model.RecorderNodes
import Verif.Props.RecorderNodes
import Verif.Props.StudioStale
import Verif.Model.DistFloat
import Verif.Props.DistFloat
import Verif.Props.EngineMarkov
import Verif.Props.EngineMarkovDemo
import Verif.Model.StudioPaths
import Verif.Props.StudioPaths
import Verif.Model.StudioColour
import Verif.Props.StudioColour
import Verif.Model.StudioField
import Verif.Props.StudioField
import Verif.Props.TranslationBack
import Verif.Props.StudioCone
import Verif.Props.HeatCounts
import Verif.Model.RunSchedule
import Verif.Props.RunSchedule
