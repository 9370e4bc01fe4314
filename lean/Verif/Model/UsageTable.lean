import Verif.Model.Usage
import Lean.Elab.Term
/-!
# Usage constants (`hrdc/usage/*.py`)

One row per assignment `attr = Usage(name, value, *kinds)`, in the order of the file.  `button.py` and
`ordinal.py` define functions, see `Button` and `Ordinal`.
-/
namespace Hrdc
namespace UsageTable

set_option maxRecDepth 40000

/-- `attr = Usage(name, value, *kinds)`. -/
structure Row where
  attr : Text
  name : Text
  value : Nat
  kinds : List UKind

/-- The constant of a row, `hrdc/usage/usage.py:6-11`. -/
def Row.usage (r : Row) : UsageC := { name := r.name, value := r.value, kinds := r.kinds }

open Lean Elab Term in
/-- `chars "abc"` is the list `['a', 'b', 'c']`; unlike `tx "abc"` it is written out as a list, which
the kernel reads faster. -/
elab "chars " s:str : term => return toExpr s.getString.toList

/-- `hrdc/usage/pid.py:3-107`. -/
def pid : List Row := [
  ⟨chars "PhysicalInterfaceDevice", chars "pid.PhysicalInterfaceDevice", 0xf0001, [.CA]⟩,
  ⟨chars "Normal", chars "pid.Normal", 0xf0020, [.DV]⟩,
  ⟨chars "SetEffectReport", chars "pid.SetEffectReport", 0xf0021, [.CL]⟩,
  ⟨chars "EffectBlockIndex", chars "pid.EffectBlockIndex", 0xf0022, [.DV]⟩,
  ⟨chars "ParameterBlockOffset", chars "pid.ParameterBlockOffset", 0xf0023, [.DV]⟩,
  ⟨chars "ROMFlag", chars "pid.ROMFlag", 0xf0024, [.DF]⟩,
  ⟨chars "EffectType", chars "pid.EffectType", 0xf0025, [.NAry]⟩,
  ⟨chars "ETConstantForce", chars "pid.ETConstantForce", 0xf0026, [.Sel]⟩,
  ⟨chars "ETRamp", chars "pid.ETRamp", 0xf0027, [.Sel]⟩,
  ⟨chars "ETCustomForceData", chars "pid.ETCustomForceData", 0xf0028, [.Sel]⟩,
  ⟨chars "ETSquare", chars "pid.ETSquare", 0xf0030, [.Sel]⟩,
  ⟨chars "ETSine", chars "pid.ETSine", 0xf0031, [.Sel]⟩,
  ⟨chars "ETTriangle", chars "pid.ETTriangle", 0xf0032, [.Sel]⟩,
  ⟨chars "ETSawtoothUp", chars "pid.ETSawtoothUp", 0xf0033, [.Sel]⟩,
  ⟨chars "ETSawtoothDown", chars "pid.ETSawtoothDown", 0xf0034, [.Sel]⟩,
  ⟨chars "ETSpring", chars "pid.ETSpring", 0xf0040, [.Sel]⟩,
  ⟨chars "ETDamper", chars "pid.ETDamper", 0xf0041, [.Sel]⟩,
  ⟨chars "ETInertia", chars "pid.ETInertia", 0xf0042, [.Sel]⟩,
  ⟨chars "ETFriction", chars "pid.ETFriction", 0xf0043, [.Sel]⟩,
  ⟨chars "Duration", chars "pid.Duration", 0xf0050, [.DV]⟩,
  ⟨chars "SamplePeriod", chars "pid.SamplePeriod", 0xf0051, [.DV]⟩,
  ⟨chars "Gain", chars "pid.Gain", 0xf0052, [.DV]⟩,
  ⟨chars "TriggerButton", chars "pid.TriggerButton", 0xf0053, [.DV]⟩,
  ⟨chars "TriggerRepeatInterval", chars "pid.TriggerRepeatInterval", 0xf0054, [.DV]⟩,
  ⟨chars "AxesEnable", chars "pid.AxesEnable", 0xf0055, [.US]⟩,
  ⟨chars "DirectionEnable", chars "pid.DirectionEnable", 0xf0056, [.DF]⟩,
  ⟨chars "Direction", chars "pid.Direction", 0xf0057, [.CL]⟩,
  ⟨chars "TypeSpecificBlockOffset", chars "pid.TypeSpecificBlockOffset", 0xf0058, [.CL]⟩,
  ⟨chars "BlockType", chars "pid.BlockType", 0xf0059, [.NAry]⟩,
  ⟨chars "SetEnvelopeReport", chars "pid.SetEnvelopeReport", 0xf005a, [.CL]⟩,
  ⟨chars "AttackLevel", chars "pid.AttackLevel", 0xf005b, [.DV]⟩,
  ⟨chars "AttackTime", chars "pid.AttackTime", 0xf005c, [.DV]⟩,
  ⟨chars "FadeLevel", chars "pid.FadeLevel", 0xf005d, [.DV]⟩,
  ⟨chars "FadeTime", chars "pid.FadeTime", 0xf005e, [.DV]⟩,
  ⟨chars "SetConditionReport", chars "pid.SetConditionReport", 0xf005f, [.CL]⟩,
  ⟨chars "CPOffset", chars "pid.CPOffset", 0xf0060, [.DV]⟩,
  ⟨chars "PositiveCoefficient", chars "pid.PositiveCoefficient", 0xf0061, [.DV]⟩,
  ⟨chars "NegativeCoefficient", chars "pid.NegativeCoefficient", 0xf0062, [.DV]⟩,
  ⟨chars "PositiveSaturation", chars "pid.PositiveSaturation", 0xf0063, [.DV]⟩,
  ⟨chars "NegativeSaturation", chars "pid.NegativeSaturation", 0xf0064, [.DV]⟩,
  ⟨chars "DeadBand", chars "pid.DeadBand", 0xf0065, [.DV]⟩,
  ⟨chars "DownloadForceSample", chars "pid.DownloadForceSample", 0xf0066, [.CL]⟩,
  ⟨chars "IsochCustomForceEnable", chars "pid.IsochCustomForceEnable", 0xf0067, [.CL]⟩,
  ⟨chars "CustomForceDataReport", chars "pid.CustomForceDataReport", 0xf0068, [.CL]⟩,
  ⟨chars "CustomForceData", chars "pid.CustomForceData", 0xf0069, [.DV]⟩,
  ⟨chars "CustomForceVendorDefinedData", chars "pid.CustomForceVendorDefinedData", 0xf006a, [.DV]⟩,
  ⟨chars "SetCustomForceReport", chars "pid.SetCustomForceReport", 0xf006b, [.CL]⟩,
  ⟨chars "CustomForceDataOffset", chars "pid.CustomForceDataOffset", 0xf006c, [.DV]⟩,
  ⟨chars "SampleCount", chars "pid.SampleCount", 0xf006d, [.DV]⟩,
  ⟨chars "SetPeriodicReport", chars "pid.SetPeriodicReport", 0xf006e, [.CL]⟩,
  ⟨chars "Offset", chars "pid.Offset", 0xf006f, [.DV]⟩,
  ⟨chars "Magnitude", chars "pid.Magnitude", 0xf0070, [.DV]⟩,
  ⟨chars "Phase", chars "pid.Phase", 0xf0071, [.DV]⟩,
  ⟨chars "Period", chars "pid.Period", 0xf0072, [.DV]⟩,
  ⟨chars "SetConstantForceReport", chars "pid.SetConstantForceReport", 0xf0073, [.CL]⟩,
  ⟨chars "SetRampForceReport", chars "pid.SetRampForceReport", 0xf0074, [.CL]⟩,
  ⟨chars "RampStart", chars "pid.RampStart", 0xf0075, [.DV]⟩,
  ⟨chars "RampEnd", chars "pid.RampEnd", 0xf0076, [.DV]⟩,
  ⟨chars "EffectOperationReport", chars "pid.EffectOperationReport", 0xf0077, [.CL]⟩,
  ⟨chars "EffectOperation", chars "pid.EffectOperation", 0xf0078, [.NAry]⟩,
  ⟨chars "OpEffectStart", chars "pid.OpEffectStart", 0xf0079, [.Sel]⟩,
  ⟨chars "OpEffectStartSolo", chars "pid.OpEffectStartSolo", 0xf007a, [.Sel]⟩,
  ⟨chars "OpEffectStop", chars "pid.OpEffectStop", 0xf007b, [.Sel]⟩,
  ⟨chars "LoopCount", chars "pid.LoopCount", 0xf007c, [.DV]⟩,
  ⟨chars "DeviceGainReport", chars "pid.DeviceGainReport", 0xf007d, [.CL]⟩,
  ⟨chars "DeviceGain", chars "pid.DeviceGain", 0xf007e, [.DV]⟩,
  ⟨chars "PoolReport", chars "pid.PoolReport", 0xf007f, [.CL]⟩,
  ⟨chars "RAMPoolSize", chars "pid.RAMPoolSize", 0xf0080, [.DV]⟩,
  ⟨chars "ROMPoolSize", chars "pid.ROMPoolSize", 0xf0081, [.SV]⟩,
  ⟨chars "ROMEffectBlockCount", chars "pid.ROMEffectBlockCount", 0xf0082, [.SV]⟩,
  ⟨chars "SimultaneousEffectsMax", chars "pid.SimultaneousEffectsMax", 0xf0083, [.SV]⟩,
  ⟨chars "PoolAlignment", chars "pid.PoolAlignment", 0xf0084, [.SV]⟩,
  ⟨chars "PoolMoveReport", chars "pid.PoolMoveReport", 0xf0085, [.CL]⟩,
  ⟨chars "MoveSource", chars "pid.MoveSource", 0xf0086, [.DV]⟩,
  ⟨chars "MoveDestination", chars "pid.MoveDestination", 0xf0087, [.DV]⟩,
  ⟨chars "MoveLength", chars "pid.MoveLength", 0xf0088, [.DV]⟩,
  ⟨chars "BlockLoadReport", chars "pid.BlockLoadReport", 0xf0089, [.CL]⟩,
  ⟨chars "BlockLoadStatus", chars "pid.BlockLoadStatus", 0xf008b, [.NAry]⟩,
  ⟨chars "BlockLoadSuccess", chars "pid.BlockLoadSuccess", 0xf008c, [.Sel]⟩,
  ⟨chars "BlockLoadFull", chars "pid.BlockLoadFull", 0xf008d, [.Sel]⟩,
  ⟨chars "BlockLoadError", chars "pid.BlockLoadError", 0xf008e, [.Sel]⟩,
  ⟨chars "BlockHandle", chars "pid.BlockHandle", 0xf008f, [.DV]⟩,
  ⟨chars "BlockFreeReport", chars "pid.BlockFreeReport", 0xf0090, [.CL]⟩,
  ⟨chars "TypeSpecificBlockHandle", chars "pid.TypeSpecificBlockHandle", 0xf0091, [.DV]⟩,
  ⟨chars "StateReport", chars "pid.StateReport", 0xf0092, [.CL]⟩,
  ⟨chars "EffectPlaying", chars "pid.EffectPlaying", 0xf0094, [.DF]⟩,
  ⟨chars "DeviceControlReport", chars "pid.DeviceControlReport", 0xf0095, [.CL]⟩,
  ⟨chars "DeviceControl", chars "pid.DeviceControl", 0xf0096, [.NAry]⟩,
  ⟨chars "DCEnableActuators", chars "pid.DCEnableActuators", 0xf0097, [.Sel]⟩,
  ⟨chars "DCDisableActuators", chars "pid.DCDisableActuators", 0xf0098, [.Sel]⟩,
  ⟨chars "DCStopAllEffects", chars "pid.DCStopAllEffects", 0xf0099, [.Sel]⟩,
  ⟨chars "DCDeviceReset", chars "pid.DCDeviceReset", 0xf009a, [.Sel]⟩,
  ⟨chars "DCDevicePause", chars "pid.DCDevicePause", 0xf009b, [.Sel]⟩,
  ⟨chars "DCDeviceContinue", chars "pid.DCDeviceContinue", 0xf009c, [.Sel]⟩,
  ⟨chars "DevicePaused", chars "pid.DevicePaused", 0xf009f, [.DF]⟩,
  ⟨chars "ActuatorsEnabled", chars "pid.ActuatorsEnabled", 0xf00a0, [.DF]⟩,
  ⟨chars "SafetySwitch", chars "pid.SafetySwitch", 0xf00a4, [.DF]⟩,
  ⟨chars "ActuatorOverrideSwitch", chars "pid.ActuatorOverrideSwitch", 0xf00a5, [.DF]⟩,
  ⟨chars "ActuatorPower", chars "pid.ActuatorPower", 0xf00a6, [.OOC]⟩,
  ⟨chars "StartDelay", chars "pid.StartDelay", 0xf00a7, [.DV]⟩,
  ⟨chars "ParameterBlockSize", chars "pid.ParameterBlockSize", 0xf00a8, [.CL]⟩,
  ⟨chars "DeviceManagedPool", chars "pid.DeviceManagedPool", 0xf00a9, [.SF]⟩,
  ⟨chars "SharedParameterBlocks", chars "pid.SharedParameterBlocks", 0xf00aa, [.SF]⟩,
  ⟨chars "CreateNewEffectReport", chars "pid.CreateNewEffectReport", 0xf00ab, [.CL]⟩,
  ⟨chars "RAMPoolAvailable", chars "pid.RAMPoolAvailable", 0xf00ac, [.DV]⟩]

/-- `hrdc/usage/keyboard.py:3-221`. -/
def keyboard : List Row := [
  ⟨chars "NoEvent", chars "keyboard.NoEvent", 0x70000, [.Sel]⟩,
  ⟨chars "Rollover", chars "keyboard.Rollover", 0x70001, [.Sel]⟩,
  ⟨chars "Postfail", chars "keyboard.Postfail", 0x70002, [.Sel]⟩,
  ⟨chars "Undefined", chars "keyboard.Undefined", 0x70003, [.Sel]⟩,
  ⟨chars "A", chars "keyboard.A", 0x70004, [.Sel]⟩,
  ⟨chars "B", chars "keyboard.B", 0x70005, [.Sel]⟩,
  ⟨chars "C", chars "keyboard.C", 0x70006, [.Sel]⟩,
  ⟨chars "D", chars "keyboard.D", 0x70007, [.Sel]⟩,
  ⟨chars "E", chars "keyboard.E", 0x70008, [.Sel]⟩,
  ⟨chars "F", chars "keyboard.F", 0x70009, [.Sel]⟩,
  ⟨chars "G", chars "keyboard.G", 0x7000a, [.Sel]⟩,
  ⟨chars "H", chars "keyboard.H", 0x7000b, [.Sel]⟩,
  ⟨chars "I", chars "keyboard.I", 0x7000c, [.Sel]⟩,
  ⟨chars "J", chars "keyboard.J", 0x7000d, [.Sel]⟩,
  ⟨chars "K", chars "keyboard.K", 0x7000e, [.Sel]⟩,
  ⟨chars "L", chars "keyboard.L", 0x7000f, [.Sel]⟩,
  ⟨chars "M", chars "keyboard.M", 0x70010, [.Sel]⟩,
  ⟨chars "N", chars "keyboard.N", 0x70011, [.Sel]⟩,
  ⟨chars "O", chars "keyboard.O", 0x70012, [.Sel]⟩,
  ⟨chars "P", chars "keyboard.P", 0x70013, [.Sel]⟩,
  ⟨chars "Q", chars "keyboard.Q", 0x70014, [.Sel]⟩,
  ⟨chars "R", chars "keyboard.R", 0x70015, [.Sel]⟩,
  ⟨chars "S", chars "keyboard.S", 0x70016, [.Sel]⟩,
  ⟨chars "T", chars "keyboard.T", 0x70017, [.Sel]⟩,
  ⟨chars "U", chars "keyboard.U", 0x70018, [.Sel]⟩,
  ⟨chars "V", chars "keyboard.V", 0x70019, [.Sel]⟩,
  ⟨chars "W", chars "keyboard.W", 0x7001a, [.Sel]⟩,
  ⟨chars "X", chars "keyboard.X", 0x7001b, [.Sel]⟩,
  ⟨chars "Y", chars "keyboard.Y", 0x7001c, [.Sel]⟩,
  ⟨chars "Z", chars "keyboard.Z", 0x7001d, [.Sel]⟩,
  ⟨chars "OneAndExclam", chars "keyboard.OneAndExclam", 0x7001e, [.Sel]⟩,
  ⟨chars "TwoAndAt", chars "keyboard.TwoAndAt", 0x7001f, [.Sel]⟩,
  ⟨chars "ThreeAndNumber", chars "keyboard.ThreeAndNumber", 0x70020, [.Sel]⟩,
  ⟨chars "FourAndDollar", chars "keyboard.FourAndDollar", 0x70021, [.Sel]⟩,
  ⟨chars "FiveAndPercent", chars "keyboard.FiveAndPercent", 0x70022, [.Sel]⟩,
  ⟨chars "SixAndCaret", chars "keyboard.SixAndCaret", 0x70023, [.Sel]⟩,
  ⟨chars "SevenAndAmp", chars "keyboard.SevenAndAmp", 0x70024, [.Sel]⟩,
  ⟨chars "EightAndStar", chars "keyboard.EightAndStar", 0x70025, [.Sel]⟩,
  ⟨chars "NineAndLeftParen", chars "keyboard.NineAndLeftParen", 0x70026, [.Sel]⟩,
  ⟨chars "ZeroAndRightParen", chars "keyboard.ZeroAndRightParen", 0x70027, [.Sel]⟩,
  ⟨chars "ReturnEnter", chars "keyboard.ReturnEnter", 0x70028, [.Sel]⟩,
  ⟨chars "Escape", chars "keyboard.Escape", 0x70029, [.Sel]⟩,
  ⟨chars "DeleteBackspace", chars "keyboard.DeleteBackspace", 0x7002a, [.Sel]⟩,
  ⟨chars "Tab", chars "keyboard.Tab", 0x7002b, [.Sel]⟩,
  ⟨chars "Spacebar", chars "keyboard.Spacebar", 0x7002c, [.Sel]⟩,
  ⟨chars "MinusAndUnderscore", chars "keyboard.MinusAndUnderscore", 0x7002d, [.Sel]⟩,
  ⟨chars "EqualAndPlus", chars "keyboard.EqualAndPlus", 0x7002e, [.Sel]⟩,
  ⟨chars "LeftBoxAndLeftCurly", chars "keyboard.LeftBoxAndLeftCurly", 0x7002f, [.Sel]⟩,
  ⟨chars "RightBoxAndRightCurly", chars "keyboard.RightBoxAndRightCurly", 0x70030, [.Sel]⟩,
  ⟨chars "BackslashAndPipe", chars "keyboard.BackslashAndPipe", 0x70031, [.Sel]⟩,
  ⟨chars "NonUsNumberAndTilde", chars "keyboard.NonUsNumberAndTilde", 0x70032, [.Sel]⟩,
  ⟨chars "SemicolonAndColon", chars "keyboard.SemicolonAndColon", 0x70033, [.Sel]⟩,
  ⟨chars "QuotAndDoubleQuot", chars "keyboard.QuotAndDoubleQuot", 0x70034, [.Sel]⟩,
  ⟨chars "GraveAccentAndTilde", chars "keyboard.GraveAccentAndTilde", 0x70035, [.Sel]⟩,
  ⟨chars "CommaAndLt", chars "keyboard.CommaAndLt", 0x70036, [.Sel]⟩,
  ⟨chars "PeriodAndGt", chars "keyboard.PeriodAndGt", 0x70037, [.Sel]⟩,
  ⟨chars "SlashAndQuestion", chars "keyboard.SlashAndQuestion", 0x70038, [.Sel]⟩,
  ⟨chars "CapsLock", chars "keyboard.CapsLock", 0x70039, [.Sel]⟩,
  ⟨chars "F1", chars "keyboard.F1", 0x7003a, [.Sel]⟩,
  ⟨chars "F2", chars "keyboard.F2", 0x7003b, [.Sel]⟩,
  ⟨chars "F3", chars "keyboard.F3", 0x7003c, [.Sel]⟩,
  ⟨chars "F4", chars "keyboard.F4", 0x7003d, [.Sel]⟩,
  ⟨chars "F5", chars "keyboard.F5", 0x7003e, [.Sel]⟩,
  ⟨chars "F6", chars "keyboard.F6", 0x7003f, [.Sel]⟩,
  ⟨chars "F7", chars "keyboard.F7", 0x70040, [.Sel]⟩,
  ⟨chars "F8", chars "keyboard.F8", 0x70041, [.Sel]⟩,
  ⟨chars "F9", chars "keyboard.F9", 0x70042, [.Sel]⟩,
  ⟨chars "F10", chars "keyboard.F10", 0x70043, [.Sel]⟩,
  ⟨chars "F11", chars "keyboard.F11", 0x70044, [.Sel]⟩,
  ⟨chars "F12", chars "keyboard.F12", 0x70045, [.Sel]⟩,
  ⟨chars "PrintScreen", chars "keyboard.PrintScreen", 0x70046, [.Sel]⟩,
  ⟨chars "ScrollLock", chars "keyboard.ScrollLock", 0x70047, [.Sel]⟩,
  ⟨chars "Pause", chars "keyboard.Pause", 0x70048, [.Sel]⟩,
  ⟨chars "Insert", chars "keyboard.Insert", 0x70049, [.Sel]⟩,
  ⟨chars "Home", chars "keyboard.Home", 0x7004a, [.Sel]⟩,
  ⟨chars "Pageup", chars "keyboard.Pageup", 0x7004b, [.Sel]⟩,
  ⟨chars "DeleteForward", chars "keyboard.DeleteForward", 0x7004c, [.Sel]⟩,
  ⟨chars "End", chars "keyboard.End", 0x7004d, [.Sel]⟩,
  ⟨chars "Pagedown", chars "keyboard.Pagedown", 0x7004e, [.Sel]⟩,
  ⟨chars "Rightarrow", chars "keyboard.Rightarrow", 0x7004f, [.Sel]⟩,
  ⟨chars "Leftarrow", chars "keyboard.Leftarrow", 0x70050, [.Sel]⟩,
  ⟨chars "Downarrow", chars "keyboard.Downarrow", 0x70051, [.Sel]⟩,
  ⟨chars "Uparrow", chars "keyboard.Uparrow", 0x70052, [.Sel]⟩,
  ⟨chars "KeypadNumLockAndClear", chars "keyboard.KeypadNumLockAndClear", 0x70053, [.Sel]⟩,
  ⟨chars "KeypadSlash", chars "keyboard.KeypadSlash", 0x70054, [.Sel]⟩,
  ⟨chars "KeypadStar", chars "keyboard.KeypadStar", 0x70055, [.Sel]⟩,
  ⟨chars "KeypadMinus", chars "keyboard.KeypadMinus", 0x70056, [.Sel]⟩,
  ⟨chars "KeypadPlus", chars "keyboard.KeypadPlus", 0x70057, [.Sel]⟩,
  ⟨chars "KeypadEnter", chars "keyboard.KeypadEnter", 0x70058, [.Sel]⟩,
  ⟨chars "Keypad1AndEnd", chars "keyboard.Keypad1AndEnd", 0x70059, [.Sel]⟩,
  ⟨chars "Keypad2AndDownArrow", chars "keyboard.Keypad2AndDownArrow", 0x7005a, [.Sel]⟩,
  ⟨chars "Keypad3AndPagedn", chars "keyboard.Keypad3AndPagedn", 0x7005b, [.Sel]⟩,
  ⟨chars "Keypad4AndLeftArrow", chars "keyboard.Keypad4AndLeftArrow", 0x7005c, [.Sel]⟩,
  ⟨chars "Keypad5", chars "keyboard.Keypad5", 0x7005d, [.Sel]⟩,
  ⟨chars "Keypad6AndRightArrow", chars "keyboard.Keypad6AndRightArrow", 0x7005e, [.Sel]⟩,
  ⟨chars "Keypad7AndHome", chars "keyboard.Keypad7AndHome", 0x7005f, [.Sel]⟩,
  ⟨chars "Keypad8AndUpArrow", chars "keyboard.Keypad8AndUpArrow", 0x70060, [.Sel]⟩,
  ⟨chars "Keypad9AndPageup", chars "keyboard.Keypad9AndPageup", 0x70061, [.Sel]⟩,
  ⟨chars "Keypad0AndInsert", chars "keyboard.Keypad0AndInsert", 0x70062, [.Sel]⟩,
  ⟨chars "KeypadPointAndDelete", chars "keyboard.KeypadPointAndDelete", 0x70063, [.Sel]⟩,
  ⟨chars "NonUsBackslashAndPipe", chars "keyboard.NonUsBackslashAndPipe", 0x70064, [.Sel]⟩,
  ⟨chars "Application", chars "keyboard.Application", 0x70065, [.Sel]⟩,
  ⟨chars "Power", chars "keyboard.Power", 0x70066, [.Sel]⟩,
  ⟨chars "KeypadEqual", chars "keyboard.KeypadEqual", 0x70067, [.Sel]⟩,
  ⟨chars "F13", chars "keyboard.F13", 0x70068, [.Sel]⟩,
  ⟨chars "F14", chars "keyboard.F14", 0x70069, [.Sel]⟩,
  ⟨chars "F15", chars "keyboard.F15", 0x7006a, [.Sel]⟩,
  ⟨chars "F16", chars "keyboard.F16", 0x7006b, [.Sel]⟩,
  ⟨chars "F17", chars "keyboard.F17", 0x7006c, [.Sel]⟩,
  ⟨chars "F18", chars "keyboard.F18", 0x7006d, [.Sel]⟩,
  ⟨chars "F19", chars "keyboard.F19", 0x7006e, [.Sel]⟩,
  ⟨chars "F20", chars "keyboard.F20", 0x7006f, [.Sel]⟩,
  ⟨chars "F21", chars "keyboard.F21", 0x70070, [.Sel]⟩,
  ⟨chars "F22", chars "keyboard.F22", 0x70071, [.Sel]⟩,
  ⟨chars "F23", chars "keyboard.F23", 0x70072, [.Sel]⟩,
  ⟨chars "F24", chars "keyboard.F24", 0x70073, [.Sel]⟩,
  ⟨chars "Execute", chars "keyboard.Execute", 0x70074, [.Sel]⟩,
  ⟨chars "Help", chars "keyboard.Help", 0x70075, [.Sel]⟩,
  ⟨chars "Menu", chars "keyboard.Menu", 0x70076, [.Sel]⟩,
  ⟨chars "Select", chars "keyboard.Select", 0x70077, [.Sel]⟩,
  ⟨chars "Stop", chars "keyboard.Stop", 0x70078, [.Sel]⟩,
  ⟨chars "Again", chars "keyboard.Again", 0x70079, [.Sel]⟩,
  ⟨chars "Undo", chars "keyboard.Undo", 0x7007a, [.Sel]⟩,
  ⟨chars "Cut", chars "keyboard.Cut", 0x7007b, [.Sel]⟩,
  ⟨chars "Copy", chars "keyboard.Copy", 0x7007c, [.Sel]⟩,
  ⟨chars "Paste", chars "keyboard.Paste", 0x7007d, [.Sel]⟩,
  ⟨chars "Find", chars "keyboard.Find", 0x7007e, [.Sel]⟩,
  ⟨chars "Mute", chars "keyboard.Mute", 0x7007f, [.Sel]⟩,
  ⟨chars "VolumeUp", chars "keyboard.VolumeUp", 0x70080, [.Sel]⟩,
  ⟨chars "VolumeDown", chars "keyboard.VolumeDown", 0x70081, [.Sel]⟩,
  ⟨chars "LockingCapsLock", chars "keyboard.LockingCapsLock", 0x70082, [.Sel]⟩,
  ⟨chars "LockingNumLock", chars "keyboard.LockingNumLock", 0x70083, [.Sel]⟩,
  ⟨chars "LockingScrollLock", chars "keyboard.LockingScrollLock", 0x70084, [.Sel]⟩,
  ⟨chars "KeypadComma", chars "keyboard.KeypadComma", 0x70085, [.Sel]⟩,
  ⟨chars "KeypadEqualAs400", chars "keyboard.KeypadEqualAs400", 0x70086, [.Sel]⟩,
  ⟨chars "International1", chars "keyboard.International1", 0x70087, [.Sel]⟩,
  ⟨chars "International2", chars "keyboard.International2", 0x70088, [.Sel]⟩,
  ⟨chars "International3", chars "keyboard.International3", 0x70089, [.Sel]⟩,
  ⟨chars "International4", chars "keyboard.International4", 0x7008a, [.Sel]⟩,
  ⟨chars "International5", chars "keyboard.International5", 0x7008b, [.Sel]⟩,
  ⟨chars "International6", chars "keyboard.International6", 0x7008c, [.Sel]⟩,
  ⟨chars "International7", chars "keyboard.International7", 0x7008d, [.Sel]⟩,
  ⟨chars "International8", chars "keyboard.International8", 0x7008e, [.Sel]⟩,
  ⟨chars "International9", chars "keyboard.International9", 0x7008f, [.Sel]⟩,
  ⟨chars "Lang1", chars "keyboard.Lang1", 0x70090, [.Sel]⟩,
  ⟨chars "Lang2", chars "keyboard.Lang2", 0x70091, [.Sel]⟩,
  ⟨chars "Lang3", chars "keyboard.Lang3", 0x70092, [.Sel]⟩,
  ⟨chars "Lang4", chars "keyboard.Lang4", 0x70093, [.Sel]⟩,
  ⟨chars "Lang5", chars "keyboard.Lang5", 0x70094, [.Sel]⟩,
  ⟨chars "Lang6", chars "keyboard.Lang6", 0x70095, [.Sel]⟩,
  ⟨chars "Lang7", chars "keyboard.Lang7", 0x70096, [.Sel]⟩,
  ⟨chars "Lang8", chars "keyboard.Lang8", 0x70097, [.Sel]⟩,
  ⟨chars "Lang9", chars "keyboard.Lang9", 0x70098, [.Sel]⟩,
  ⟨chars "AlternateErase", chars "keyboard.AlternateErase", 0x70099, [.Sel]⟩,
  ⟨chars "SysreqAttn", chars "keyboard.SysreqAttn", 0x7009a, [.Sel]⟩,
  ⟨chars "Cancel", chars "keyboard.Cancel", 0x7009b, [.Sel]⟩,
  ⟨chars "Clear", chars "keyboard.Clear", 0x7009c, [.Sel]⟩,
  ⟨chars "Prior", chars "keyboard.Prior", 0x7009d, [.Sel]⟩,
  ⟨chars "Return", chars "keyboard.Return", 0x7009e, [.Sel]⟩,
  ⟨chars "Separator", chars "keyboard.Separator", 0x7009f, [.Sel]⟩,
  ⟨chars "Out", chars "keyboard.Out", 0x700a0, [.Sel]⟩,
  ⟨chars "Oper", chars "keyboard.Oper", 0x700a1, [.Sel]⟩,
  ⟨chars "ClearAgain", chars "keyboard.ClearAgain", 0x700a2, [.Sel]⟩,
  ⟨chars "CrselProps", chars "keyboard.CrselProps", 0x700a3, [.Sel]⟩,
  ⟨chars "Exsel", chars "keyboard.Exsel", 0x700a4, [.Sel]⟩,
  ⟨chars "Keypad00", chars "keyboard.Keypad00", 0x700b0, [.Sel]⟩,
  ⟨chars "Keypad000", chars "keyboard.Keypad000", 0x700b1, [.Sel]⟩,
  ⟨chars "ThousandsSeparator", chars "keyboard.ThousandsSeparator", 0x700b2, [.Sel]⟩,
  ⟨chars "DecimalSeparator", chars "keyboard.DecimalSeparator", 0x700b3, [.Sel]⟩,
  ⟨chars "CurrencyUnit", chars "keyboard.CurrencyUnit", 0x700b4, [.Sel]⟩,
  ⟨chars "CurrencySubMinusUnit", chars "keyboard.CurrencySubMinusUnit", 0x700b5, [.Sel]⟩,
  ⟨chars "KeypadLeftParen", chars "keyboard.KeypadLeftParen", 0x700b6, [.Sel]⟩,
  ⟨chars "KeypadRightParen", chars "keyboard.KeypadRightParen", 0x700b7, [.Sel]⟩,
  ⟨chars "KeypadLeftCurly", chars "keyboard.KeypadLeftCurly", 0x700b8, [.Sel]⟩,
  ⟨chars "KeypadRightCurly", chars "keyboard.KeypadRightCurly", 0x700b9, [.Sel]⟩,
  ⟨chars "KeypadTab", chars "keyboard.KeypadTab", 0x700ba, [.Sel]⟩,
  ⟨chars "KeypadBackspace", chars "keyboard.KeypadBackspace", 0x700bb, [.Sel]⟩,
  ⟨chars "KeypadA", chars "keyboard.KeypadA", 0x700bc, [.Sel]⟩,
  ⟨chars "KeypadB", chars "keyboard.KeypadB", 0x700bd, [.Sel]⟩,
  ⟨chars "KeypadC", chars "keyboard.KeypadC", 0x700be, [.Sel]⟩,
  ⟨chars "KeypadD", chars "keyboard.KeypadD", 0x700bf, [.Sel]⟩,
  ⟨chars "KeypadE", chars "keyboard.KeypadE", 0x700c0, [.Sel]⟩,
  ⟨chars "KeypadF", chars "keyboard.KeypadF", 0x700c1, [.Sel]⟩,
  ⟨chars "KeypadXor", chars "keyboard.KeypadXor", 0x700c2, [.Sel]⟩,
  ⟨chars "KeypadCaret", chars "keyboard.KeypadCaret", 0x700c3, [.Sel]⟩,
  ⟨chars "KeypadPercent", chars "keyboard.KeypadPercent", 0x700c4, [.Sel]⟩,
  ⟨chars "KeypadLt", chars "keyboard.KeypadLt", 0x700c5, [.Sel]⟩,
  ⟨chars "KeypadGt", chars "keyboard.KeypadGt", 0x700c6, [.Sel]⟩,
  ⟨chars "KeypadAmp", chars "keyboard.KeypadAmp", 0x700c7, [.Sel]⟩,
  ⟨chars "KeypadAmpAmp", chars "keyboard.KeypadAmpAmp", 0x700c8, [.Sel]⟩,
  ⟨chars "KeypadPipe", chars "keyboard.KeypadPipe", 0x700c9, [.Sel]⟩,
  ⟨chars "KeypadPipePipe", chars "keyboard.KeypadPipePipe", 0x700ca, [.Sel]⟩,
  ⟨chars "KeypadColon", chars "keyboard.KeypadColon", 0x700cb, [.Sel]⟩,
  ⟨chars "KeypadNumber", chars "keyboard.KeypadNumber", 0x700cc, [.Sel]⟩,
  ⟨chars "KeypadSpace", chars "keyboard.KeypadSpace", 0x700cd, [.Sel]⟩,
  ⟨chars "KeypadAt", chars "keyboard.KeypadAt", 0x700ce, [.Sel]⟩,
  ⟨chars "KeypadExclam", chars "keyboard.KeypadExclam", 0x700cf, [.Sel]⟩,
  ⟨chars "KeypadMemoryStore", chars "keyboard.KeypadMemoryStore", 0x700d0, [.Sel]⟩,
  ⟨chars "KeypadMemoryRecall", chars "keyboard.KeypadMemoryRecall", 0x700d1, [.Sel]⟩,
  ⟨chars "KeypadMemoryClear", chars "keyboard.KeypadMemoryClear", 0x700d2, [.Sel]⟩,
  ⟨chars "KeypadMemoryAdd", chars "keyboard.KeypadMemoryAdd", 0x700d3, [.Sel]⟩,
  ⟨chars "KeypadMemorySubtract", chars "keyboard.KeypadMemorySubtract", 0x700d4, [.Sel]⟩,
  ⟨chars "KeypadMemoryMultiply", chars "keyboard.KeypadMemoryMultiply", 0x700d5, [.Sel]⟩,
  ⟨chars "KeypadMemoryDivide", chars "keyboard.KeypadMemoryDivide", 0x700d6, [.Sel]⟩,
  ⟨chars "KeypadPlusMinus", chars "keyboard.KeypadPlusMinus", 0x700d7, [.Sel]⟩,
  ⟨chars "KeypadClear", chars "keyboard.KeypadClear", 0x700d8, [.Sel]⟩,
  ⟨chars "KeypadClearEntry", chars "keyboard.KeypadClearEntry", 0x700d9, [.Sel]⟩,
  ⟨chars "KeypadBinary", chars "keyboard.KeypadBinary", 0x700da, [.Sel]⟩,
  ⟨chars "KeypadOctal", chars "keyboard.KeypadOctal", 0x700db, [.Sel]⟩,
  ⟨chars "KeypadDecimal", chars "keyboard.KeypadDecimal", 0x700dc, [.Sel]⟩,
  ⟨chars "KeypadHexadecimal", chars "keyboard.KeypadHexadecimal", 0x700dd, [.Sel]⟩,
  ⟨chars "LeftControl", chars "keyboard.LeftControl", 0x700e0, [.DV]⟩,
  ⟨chars "LeftShift", chars "keyboard.LeftShift", 0x700e1, [.DV]⟩,
  ⟨chars "LeftAlt", chars "keyboard.LeftAlt", 0x700e2, [.DV]⟩,
  ⟨chars "LeftGui", chars "keyboard.LeftGui", 0x700e3, [.DV]⟩,
  ⟨chars "RightControl", chars "keyboard.RightControl", 0x700e4, [.DV]⟩,
  ⟨chars "RightShift", chars "keyboard.RightShift", 0x700e5, [.DV]⟩,
  ⟨chars "RightAlt", chars "keyboard.RightAlt", 0x700e6, [.DV]⟩,
  ⟨chars "RightGui", chars "keyboard.RightGui", 0x700e7, [.DV]⟩]

/-- `hrdc/usage/desktop.py:3-88`. -/
def desktop : List Row := [
  ⟨chars "Pointer", chars "desktop.Pointer", 0x10001, [.CP]⟩,
  ⟨chars "Mouse", chars "desktop.Mouse", 0x10002, [.CA]⟩,
  ⟨chars "Joystick", chars "desktop.Joystick", 0x10004, [.CA]⟩,
  ⟨chars "Gamepad", chars "desktop.Gamepad", 0x10005, [.CA]⟩,
  ⟨chars "Keyboard", chars "desktop.Keyboard", 0x10006, [.CA]⟩,
  ⟨chars "Keypad", chars "desktop.Keypad", 0x10007, [.CA]⟩,
  ⟨chars "MultiAxisCtrl", chars "desktop.MultiAxisCtrl", 0x10008, [.CA]⟩,
  ⟨chars "TabletPCSystem", chars "desktop.TabletPcSystem", 0x10009, [.CA]⟩,
  ⟨chars "PortableDeviceControl", chars "desktop.PortableDeviceControl", 0x1000d, [.CA]⟩,
  ⟨chars "X", chars "desktop.X", 0x10030, [.DV]⟩,
  ⟨chars "Y", chars "desktop.Y", 0x10031, [.DV]⟩,
  ⟨chars "Z", chars "desktop.Z", 0x10032, [.DV]⟩,
  ⟨chars "Rx", chars "desktop.Rx", 0x10033, [.DV]⟩,
  ⟨chars "Ry", chars "desktop.Ry", 0x10034, [.DV]⟩,
  ⟨chars "Rz", chars "desktop.Rz", 0x10035, [.DV]⟩,
  ⟨chars "Slider", chars "desktop.Slider", 0x10036, [.DV]⟩,
  ⟨chars "Dial", chars "desktop.Dial", 0x10037, [.DV]⟩,
  ⟨chars "Wheel", chars "desktop.Wheel", 0x10038, [.DV]⟩,
  ⟨chars "HatSwitch", chars "desktop.HatSwitch", 0x10039, [.DV]⟩,
  ⟨chars "CountedBuffer", chars "desktop.CountedBuffer", 0x1003a, [.CL]⟩,
  ⟨chars "ByteCount", chars "desktop.ByteCount", 0x1003b, [.DV]⟩,
  ⟨chars "MotionWakeup", chars "desktop.MotionWakeup", 0x1003c, [.OSC]⟩,
  ⟨chars "Start", chars "desktop.start", 0x1003d, [.OOC]⟩,
  ⟨chars "Select", chars "desktop.select", 0x1003e, [.OOC]⟩,
  ⟨chars "Vx", chars "desktop.Vx", 0x10040, [.DV]⟩,
  ⟨chars "Vy", chars "desktop.Vy", 0x10041, [.DV]⟩,
  ⟨chars "Vz", chars "desktop.Vz", 0x10042, [.DV]⟩,
  ⟨chars "Vbrx", chars "desktop.Vbrx", 0x10043, [.DV]⟩,
  ⟨chars "Vbry", chars "desktop.Vbry", 0x10044, [.DV]⟩,
  ⟨chars "Vbrz", chars "desktop.Vbrz", 0x10045, [.DV]⟩,
  ⟨chars "Vno", chars "desktop.Vno", 0x10046, [.DV]⟩,
  ⟨chars "FeatureNotification", chars "desktop.FeatureNotification", 0x10047, [.DV]⟩,
  ⟨chars "ResolutionMultiplier", chars "desktop.ResolutionMultiplier", 0x10048, [.DV]⟩,
  ⟨chars "SysControl", chars "desktop.SysControl", 0x10080, [.CA]⟩,
  ⟨chars "SysPowerDown", chars "desktop.SysPowerDown", 0x10081, [.OSC]⟩,
  ⟨chars "SysSleep", chars "desktop.SysSleep", 0x10082, [.OSC]⟩,
  ⟨chars "SysWakeUp", chars "desktop.SysWakeUp", 0x10083, [.OSC]⟩,
  ⟨chars "SysContextMenu", chars "desktop.SysContextMenu", 0x10084, [.OSC]⟩,
  ⟨chars "SysMainMenu", chars "desktop.SysMainMenu", 0x10085, [.OSC]⟩,
  ⟨chars "SysAppMenu", chars "desktop.SysAppMenu", 0x10086, [.OSC]⟩,
  ⟨chars "SysMenuHelp", chars "desktop.SysMenuHelp", 0x10087, [.OSC]⟩,
  ⟨chars "SysMenuExit", chars "desktop.SysMenuExit", 0x10088, [.OSC]⟩,
  ⟨chars "SysMenuSelect", chars "desktop.SysMenuSelect", 0x10089, [.OSC]⟩,
  ⟨chars "SysMenuRight", chars "desktop.SysMenuRight", 0x1008a, [.RTC]⟩,
  ⟨chars "SysMenuLeft", chars "desktop.SysMenuLeft", 0x1008b, [.RTC]⟩,
  ⟨chars "SysMenuUp", chars "desktop.SysMenuUp", 0x1008c, [.RTC]⟩,
  ⟨chars "SysMenuDown", chars "desktop.SysMenuDown", 0x1008d, [.RTC]⟩,
  ⟨chars "SysColdRestart", chars "desktop.SysColdRestart", 0x1008e, [.OSC]⟩,
  ⟨chars "SysWarmRestart", chars "desktop.SysWarmRestart", 0x1008f, [.OSC]⟩,
  ⟨chars "DPadUp", chars "desktop.DPadUp", 0x10090, [.OOC]⟩,
  ⟨chars "DPadDown", chars "desktop.DPadDown", 0x10091, [.OOC]⟩,
  ⟨chars "DPadRight", chars "desktop.DPadRight", 0x10092, [.OOC]⟩,
  ⟨chars "DPadLeft", chars "desktop.DPadLeft", 0x10093, [.OOC]⟩,
  ⟨chars "SysDock", chars "desktop.SysDock", 0x100a0, [.OSC]⟩,
  ⟨chars "SysUndock", chars "desktop.SysUndock", 0x100a1, [.OSC]⟩,
  ⟨chars "SysSetup", chars "desktop.SysSetup", 0x100a2, [.OSC]⟩,
  ⟨chars "SysBreak", chars "desktop.SysBreak", 0x100a3, [.OSC]⟩,
  ⟨chars "SysDbgrBreak", chars "desktop.SysDbgrBreak", 0x100a4, [.OSC]⟩,
  ⟨chars "AppBreak", chars "desktop.AppBreak", 0x100a5, [.OSC]⟩,
  ⟨chars "AppDbgrBreak", chars "desktop.AppDbgrBreak", 0x100a6, [.OSC]⟩,
  ⟨chars "SysSpeakerMute", chars "desktop.SysSpeakerMute", 0x100a7, [.OSC]⟩,
  ⟨chars "SysHibernate", chars "desktop.SysHibernate", 0x100a8, [.OSC]⟩,
  ⟨chars "SysDsplInvert", chars "desktop.SysDsplInvert", 0x100b0, [.OSC]⟩,
  ⟨chars "SysDsplInternal", chars "desktop.SysDsplInternal", 0x100b1, [.OSC]⟩,
  ⟨chars "SysDsplExternal", chars "desktop.SysDsplExternal", 0x100b2, [.OSC]⟩,
  ⟨chars "SysDsplBoth", chars "desktop.SysDsplBoth", 0x100b3, [.OSC]⟩,
  ⟨chars "SysDsplDual", chars "desktop.SysDsplDual", 0x100b4, [.OSC]⟩,
  ⟨chars "SysDsplToggleIntExt", chars "desktop.SysDsplToggleIntExt", 0x100b5, [.OSC]⟩,
  ⟨chars "SysDsplSwap12", chars "desktop.SysDsplSwap12", 0x100b6, [.OSC]⟩,
  ⟨chars "SysDsplLcdAutoscale", chars "desktop.SysDsplLcdAutoscale", 0x100b7, [.OSC]⟩,
  ⟨chars "WirelessRadioControls", chars "desktop.WirelessRadioControls", 0x1000c, [.CA]⟩,
  ⟨chars "WirelessRadioButton", chars "desktop.WirelessRadioButton", 0x100c6, [.OOC]⟩,
  ⟨chars "WirelessRadioLed", chars "desktop.WirelessRadioLed", 0x100c7, [.OOC]⟩,
  ⟨chars "WirelessRadioSliderSwitch", chars "desktop.WirelessRadioSliderSwitch", 0x100c8, [.OOC]⟩,
  ⟨chars "SystemDisplayRotationLockButton", chars "desktop.SystemDisplayRotationLockButton", 0x1000c9, [.OOC]⟩,
  ⟨chars "SystemDisplayRotationLockSliderSwitch", chars "desktop.SystemDisplayRotationLockSliderSwitch", 0x100ca, [.OOC]⟩,
  ⟨chars "ControlEnable", chars "desktop.ControlEnable", 0x100cb, [.DF]⟩]

/-- `hrdc/usage/telephony.py:3-66`. -/
def telephony : List Row := [
  ⟨chars "Phone", chars "telephony.Phone", 0xb0001, [.CA]⟩,
  ⟨chars "AnsweringMachine", chars "telephony.AnsweringMachine", 0xb0002, [.CA]⟩,
  ⟨chars "MessageControls", chars "telephony.MessageControls", 0xb0003, [.CL]⟩,
  ⟨chars "Handset", chars "telephony.Handset", 0xb0004, [.CL]⟩,
  ⟨chars "Headset", chars "telephony.Headset", 0xb0005, [.CL]⟩,
  ⟨chars "TelephonyKeyPad", chars "telephony.TelephonyKeyPad", 0xb0006, [.NAry]⟩,
  ⟨chars "ProgrammableButton", chars "telephony.ProgrammableButton", 0xb0007, [.NAry]⟩,
  ⟨chars "HookSwitch", chars "telephony.HookSwitch", 0xb0020, [.OOC]⟩,
  ⟨chars "Flash", chars "telephony.Flash", 0xb0021, [.MC]⟩,
  ⟨chars "Feature", chars "telephony.Feature", 0xb0022, [.OSC]⟩,
  ⟨chars "Hold", chars "telephony.Hold", 0xb0023, [.OOC]⟩,
  ⟨chars "Redial", chars "telephony.Redial", 0xb0024, [.OSC]⟩,
  ⟨chars "Transfer", chars "telephony.Transfer", 0xb0025, [.OSC]⟩,
  ⟨chars "Drop", chars "telephony.Drop", 0xb0026, [.OSC]⟩,
  ⟨chars "Park", chars "telephony.Park", 0xb0027, [.OOC]⟩,
  ⟨chars "ForwardCalls", chars "telephony.ForwardCalls", 0xb0028, [.OOC]⟩,
  ⟨chars "AlternateFunction", chars "telephony.AlternateFunction", 0xb0029, [.MC]⟩,
  ⟨chars "Line", chars "telephony.Line", 0xb002a, [.OSC]⟩,
  ⟨chars "SpeakerPhone", chars "telephony.SpeakerPhone", 0xb002b, [.OOC]⟩,
  ⟨chars "Conference", chars "telephony.Conference", 0xb002c, [.OOC]⟩,
  ⟨chars "RingEnable", chars "telephony.RingEnable", 0xb002d, [.OOC]⟩,
  ⟨chars "RingSelect", chars "telephony.RingSelect", 0xb002e, [.OSC]⟩,
  ⟨chars "PhoneMute", chars "telephony.PhoneMute", 0xb002f, [.OOC]⟩,
  ⟨chars "CallerID", chars "telephony.CallerID", 0xb0030, [.MC]⟩,
  ⟨chars "SpeedDial", chars "telephony.SpeedDial", 0xb0050, [.OSC]⟩,
  ⟨chars "StoreNumber", chars "telephony.StoreNumber", 0xb0051, [.OSC]⟩,
  ⟨chars "RecallNumber", chars "telephony.RecallNumber", 0xb0052, [.OSC]⟩,
  ⟨chars "PhoneDirectory", chars "telephony.PhoneDirectory", 0xb0053, [.OOC]⟩,
  ⟨chars "VoiceMail", chars "telephony.VoiceMail", 0xb0070, [.OOC]⟩,
  ⟨chars "ScreenCalls", chars "telephony.ScreenCalls", 0xb0071, [.OOC]⟩,
  ⟨chars "DoNotDisturb", chars "telephony.DoNotDisturb", 0xb0072, [.OOC]⟩,
  ⟨chars "Message", chars "telephony.Message", 0xb0073, [.OSC]⟩,
  ⟨chars "AnswerOnOff", chars "telephony.AnswerOnOff", 0xb0074, [.OOC]⟩,
  ⟨chars "InsideDialTone", chars "telephony.InsideDialTone", 0xb0090, [.MC]⟩,
  ⟨chars "OutsideDialTone", chars "telephony.OutsideDialTone", 0xb0091, [.MC]⟩,
  ⟨chars "InsideRingTone", chars "telephony.InsideRingTone", 0xb0092, [.MC]⟩,
  ⟨chars "OutsideRingTone", chars "telephony.OutsideRingTone", 0xb0093, [.MC]⟩,
  ⟨chars "PriorityRingTone", chars "telephony.PriorityRingTone", 0xb0094, [.MC]⟩,
  ⟨chars "InsideRingback", chars "telephony.InsideRingback", 0xb0095, [.MC]⟩,
  ⟨chars "PriorityRingback", chars "telephony.PriorityRingback", 0xb0096, [.MC]⟩,
  ⟨chars "LineBusyTone", chars "telephony.LineBusyTone", 0xb0097, [.MC]⟩,
  ⟨chars "ReorderTone", chars "telephony.ReorderTone", 0xb0098, [.MC]⟩,
  ⟨chars "CallWaitingTone", chars "telephony.CallWaitingTone", 0xb0099, [.MC]⟩,
  ⟨chars "ConfirmationTone1", chars "telephony.ConfirmationTone1", 0xb009a, [.MC]⟩,
  ⟨chars "ConfirmationTone2", chars "telephony.ConfirmationTone2", 0xb009b, [.MC]⟩,
  ⟨chars "TonesOff", chars "telephony.TonesOff", 0xb009c, [.OOC]⟩,
  ⟨chars "OutsideRingback", chars "telephony.OutsideRingback", 0xb009d, [.MC]⟩,
  ⟨chars "Ringer", chars "telephony.Ringer", 0xb009e, [.OOC]⟩,
  ⟨chars "PhoneKey0", chars "telephony.PhoneKey0", 0xb00b0, [.Sel]⟩,
  ⟨chars "PhoneKey1", chars "telephony.PhoneKey1", 0xb00b1, [.Sel]⟩,
  ⟨chars "PhoneKey2", chars "telephony.PhoneKey2", 0xb00b2, [.Sel]⟩,
  ⟨chars "PhoneKey3", chars "telephony.PhoneKey3", 0xb00b3, [.Sel]⟩,
  ⟨chars "PhoneKey4", chars "telephony.PhoneKey4", 0xb00b4, [.Sel]⟩,
  ⟨chars "PhoneKey5", chars "telephony.PhoneKey5", 0xb00b5, [.Sel]⟩,
  ⟨chars "PhoneKey6", chars "telephony.PhoneKey6", 0xb00b6, [.Sel]⟩,
  ⟨chars "PhoneKey7", chars "telephony.PhoneKey7", 0xb00b7, [.Sel]⟩,
  ⟨chars "PhoneKey8", chars "telephony.PhoneKey8", 0xb00b8, [.Sel]⟩,
  ⟨chars "PhoneKey9", chars "telephony.PhoneKey9", 0xb00b9, [.Sel]⟩,
  ⟨chars "PhoneKeyStar", chars "telephony.PhoneKeyStar", 0xb00ba, [.Sel]⟩,
  ⟨chars "PhoneKeyPound", chars "telephony.PhoneKeyPound", 0xb00bb, [.Sel]⟩,
  ⟨chars "PhoneKeyA", chars "telephony.PhoneKeyA", 0xb00bc, [.Sel]⟩,
  ⟨chars "PhoneKeyB", chars "telephony.PhoneKeyB", 0xb00bd, [.Sel]⟩,
  ⟨chars "PhoneKeyC", chars "telephony.PhoneKeyC", 0xb00be, [.Sel]⟩,
  ⟨chars "PhoneKeyD", chars "telephony.PhoneKeyD", 0xb00bf, [.Sel]⟩]

/-- `hrdc/usage/consumer.py:3-411`. -/
def consumer : List Row := [
  ⟨chars "ConsumerControl", chars "consumer.ConsumerControl", 0xc0001, [.CA]⟩,
  ⟨chars "NumericKeyPad", chars "consumer.NumericKeyPad", 0xc0002, [.NAry]⟩,
  ⟨chars "ProgrammableButtons", chars "consumer.ProgrammableButtons", 0xc0003, [.NAry]⟩,
  ⟨chars "Microphone", chars "consumer.Microphone", 0xc0004, [.CA]⟩,
  ⟨chars "Headphone", chars "consumer.Headphone", 0xc0005, [.CA]⟩,
  ⟨chars "GraphicEqualizer", chars "consumer.GraphicEqualizer", 0xc0006, [.CA]⟩,
  ⟨chars "Plus10", chars "consumer.Plus10", 0xc0020, [.OSC]⟩,
  ⟨chars "Plus100", chars "consumer.Plus100", 0xc0021, [.OSC]⟩,
  ⟨chars "AmPm", chars "consumer.AmPm", 0xc0022, [.OSC]⟩,
  ⟨chars "Power", chars "consumer.Power", 0xc0030, [.OOC]⟩,
  ⟨chars "Reset", chars "consumer.Reset", 0xc0031, [.OSC]⟩,
  ⟨chars "Sleep", chars "consumer.Sleep", 0xc0032, [.OSC]⟩,
  ⟨chars "SleepAfter", chars "consumer.SleepAfter", 0xc0033, [.OSC]⟩,
  ⟨chars "SleepMode", chars "consumer.SleepMode", 0xc0034, [.RTC]⟩,
  ⟨chars "Illumination", chars "consumer.Illumination", 0xc0035, [.OOC]⟩,
  ⟨chars "FunctionButtons", chars "consumer.FunctionButtons", 0xc0036, [.NAry]⟩,
  ⟨chars "Menu", chars "consumer.Menu", 0xc0040, [.OOC]⟩,
  ⟨chars "MenuPick", chars "consumer.MenuPick", 0xc0041, [.OSC]⟩,
  ⟨chars "MenuUp", chars "consumer.MenuUp", 0xc0042, [.OSC]⟩,
  ⟨chars "MenuDown", chars "consumer.MenuDown", 0xc0043, [.OSC]⟩,
  ⟨chars "MenuLeft", chars "consumer.MenuLeft", 0xc0044, [.OSC]⟩,
  ⟨chars "MenuRight", chars "consumer.MenuRight", 0xc0045, [.OSC]⟩,
  ⟨chars "MenuEscape", chars "consumer.MenuEscape", 0xc0046, [.OSC]⟩,
  ⟨chars "MenuValueIncrease", chars "consumer.MenuValueIncrease", 0xc0047, [.OSC]⟩,
  ⟨chars "MenuValueDecrease", chars "consumer.MenuValueDecrease", 0xc0048, [.OSC]⟩,
  ⟨chars "DataOnScreen", chars "consumer.DataOnScreen", 0xc0060, [.OOC]⟩,
  ⟨chars "ClosedCaption", chars "consumer.ClosedCaption", 0xc0061, [.OOC]⟩,
  ⟨chars "ClosedCaptionSelect", chars "consumer.ClosedCaptionSelect", 0xc0062, [.OSC]⟩,
  ⟨chars "VcrTv", chars "consumer.VcrTv", 0xc0063, [.OOC]⟩,
  ⟨chars "BroadcastMode", chars "consumer.BroadcastMode", 0xc0064, [.OSC]⟩,
  ⟨chars "Snapshot", chars "consumer.Snapshot", 0xc0065, [.OSC]⟩,
  ⟨chars "Still", chars "consumer.Still", 0xc0066, [.OSC]⟩,
  ⟨chars "PipToggle", chars "consumer.PipToggle", 0xc0067, [.OSC]⟩,
  ⟨chars "PipSwap", chars "consumer.PipSwap", 0xc0068, [.OSC]⟩,
  ⟨chars "Red", chars "consumer.Red", 0xc0069, [.MC]⟩,
  ⟨chars "Green", chars "consumer.Green", 0xc006a, [.MC]⟩,
  ⟨chars "Blue", chars "consumer.Blue", 0xc006b, [.MC]⟩,
  ⟨chars "Yellow", chars "consumer.Yellow", 0xc006c, [.MC]⟩,
  ⟨chars "Aspect", chars "consumer.Aspect", 0xc006d, [.OSC]⟩,
  ⟨chars "ThreeDMode", chars "consumer.ThreeDMode", 0xc006e, [.OSC]⟩,
  ⟨chars "DisplayBrightnessIncrement", chars "consumer.DisplayBrightnessIncrement", 0xc006f, [.RTC]⟩,
  ⟨chars "DisplayBrightnessDecrement", chars "consumer.DisplayBrightnessDecrement", 0xc0070, [.RTC]⟩,
  ⟨chars "DisplayBrightness", chars "consumer.DisplayBrightness", 0xc0071, [.LC]⟩,
  ⟨chars "DisplayBacklightToggle", chars "consumer.DisplayBacklightToggle", 0xc0072, [.OOC]⟩,
  ⟨chars "DisplaySetBrightnesstoMinimum", chars "consumer.DisplaySetBrightnesstoMinimum", 0xc0073, [.OSC]⟩,
  ⟨chars "DisplaySetBrightnesstoMaximum", chars "consumer.DisplaySetBrightnesstoMaximum", 0xc0074, [.OSC]⟩,
  ⟨chars "DisplaySetAutoBrightness", chars "consumer.DisplaySetAutoBrightness", 0xc0075, [.OOC]⟩,
  ⟨chars "Selection", chars "consumer.Selection", 0xc0080, [.NAry]⟩,
  ⟨chars "AssignSelection", chars "consumer.AssignSelection", 0xc0081, [.OSC]⟩,
  ⟨chars "ModeStep", chars "consumer.ModeStep", 0xc0082, [.OSC]⟩,
  ⟨chars "RecallLast", chars "consumer.RecallLast", 0xc0083, [.OSC]⟩,
  ⟨chars "EnterChannel", chars "consumer.EnterChannel", 0xc0084, [.OSC]⟩,
  ⟨chars "OrderMovie", chars "consumer.OrderMovie", 0xc0085, [.OSC]⟩,
  ⟨chars "Channel", chars "consumer.Channel", 0xc0086, [.LC]⟩,
  ⟨chars "MediaSelection", chars "consumer.MediaSelection", 0xc0087, [.NAry]⟩,
  ⟨chars "MediaSelectComputer", chars "consumer.MediaSelectComputer", 0xc0088, [.Sel]⟩,
  ⟨chars "MediaSelectTv", chars "consumer.MediaSelectTv", 0xc0089, [.Sel]⟩,
  ⟨chars "MediaSelectWww", chars "consumer.MediaSelectWww", 0xc008a, [.Sel]⟩,
  ⟨chars "MediaSelectDvd", chars "consumer.MediaSelectDvd", 0xc008b, [.Sel]⟩,
  ⟨chars "MediaSelectTelephone", chars "consumer.MediaSelectTelephone", 0xc008c, [.Sel]⟩,
  ⟨chars "MediaSelectProgramGuide", chars "consumer.MediaSelectProgramGuide", 0xc008d, [.Sel]⟩,
  ⟨chars "MediaSelectVideoPhone", chars "consumer.MediaSelectVideoPhone", 0xc008e, [.Sel]⟩,
  ⟨chars "MediaSelectGames", chars "consumer.MediaSelectGames", 0xc008f, [.Sel]⟩,
  ⟨chars "MediaSelectMessages", chars "consumer.MediaSelectMessages", 0xc0090, [.Sel]⟩,
  ⟨chars "MediaSelectCd", chars "consumer.MediaSelectCd", 0xc0091, [.Sel]⟩,
  ⟨chars "MediaSelectVcr", chars "consumer.MediaSelectVcr", 0xc0092, [.Sel]⟩,
  ⟨chars "MediaSelectTuner", chars "consumer.MediaSelectTuner", 0xc0093, [.Sel]⟩,
  ⟨chars "Quit", chars "consumer.Quit", 0xc0094, [.OSC]⟩,
  ⟨chars "Help", chars "consumer.Help", 0xc0095, [.OOC]⟩,
  ⟨chars "MediaSelectTape", chars "consumer.MediaSelectTape", 0xc0096, [.Sel]⟩,
  ⟨chars "MediaSelectCable", chars "consumer.MediaSelectCable", 0xc0097, [.Sel]⟩,
  ⟨chars "MediaSelectSatellite", chars "consumer.MediaSelectSatellite", 0xc0098, [.Sel]⟩,
  ⟨chars "MediaSelectSecurity", chars "consumer.MediaSelectSecurity", 0xc0099, [.Sel]⟩,
  ⟨chars "MediaSelectHome", chars "consumer.MediaSelectHome", 0xc009a, [.Sel]⟩,
  ⟨chars "MediaSelectCall", chars "consumer.MediaSelectCall", 0xc009b, [.Sel]⟩,
  ⟨chars "ChannelIncrement", chars "consumer.ChannelIncrement", 0xc009c, [.OSC]⟩,
  ⟨chars "ChannelDecrement", chars "consumer.ChannelDecrement", 0xc009d, [.OSC]⟩,
  ⟨chars "MediaSelectSap", chars "consumer.MediaSelectSap", 0xc009e, [.Sel]⟩,
  ⟨chars "VcrPlus", chars "consumer.VcrPlus", 0xc00a0, [.OSC]⟩,
  ⟨chars "Once", chars "consumer.Once", 0xc00a1, [.OSC]⟩,
  ⟨chars "Daily", chars "consumer.Daily", 0xc00a2, [.OSC]⟩,
  ⟨chars "Weekly", chars "consumer.Weekly", 0xc00a3, [.OSC]⟩,
  ⟨chars "Monthly", chars "consumer.Monthly", 0xc00a4, [.OSC]⟩,
  ⟨chars "Play", chars "consumer.Play", 0xc00b0, [.OOC]⟩,
  ⟨chars "Pause", chars "consumer.Pause", 0xc00b1, [.OOC]⟩,
  ⟨chars "Record", chars "consumer.Record", 0xc00b2, [.OOC]⟩,
  ⟨chars "FastForward", chars "consumer.FastForward", 0xc00b3, [.OOC]⟩,
  ⟨chars "Rewind", chars "consumer.Rewind", 0xc00b4, [.OOC]⟩,
  ⟨chars "ScanNextTrack", chars "consumer.ScanNextTrack", 0xc00b5, [.OSC]⟩,
  ⟨chars "ScanPreviousTrack", chars "consumer.ScanPreviousTrack", 0xc00b6, [.OSC]⟩,
  ⟨chars "Stop", chars "consumer.Stop", 0xc00b7, [.OSC]⟩,
  ⟨chars "Eject", chars "consumer.Eject", 0xc00b8, [.OSC]⟩,
  ⟨chars "RandomPlay", chars "consumer.RandomPlay", 0xc00b9, [.OOC]⟩,
  ⟨chars "SelectDisc", chars "consumer.SelectDisc", 0xc00ba, [.NAry]⟩,
  ⟨chars "EnterDisc", chars "consumer.EnterDisc", 0xc00bb, [.MC]⟩,
  ⟨chars "Repeat", chars "consumer.Repeat", 0xc00bc, [.OSC]⟩,
  ⟨chars "Tracking", chars "consumer.Tracking", 0xc00bd, [.LC]⟩,
  ⟨chars "TrackNormal", chars "consumer.TrackNormal", 0xc00be, [.OSC]⟩,
  ⟨chars "SlowTracking", chars "consumer.SlowTracking", 0xc00bf, [.LC]⟩,
  ⟨chars "FrameForward", chars "consumer.FrameForward", 0xc00c0, [.RTC]⟩,
  ⟨chars "FrameBack", chars "consumer.FrameBack", 0xc00c1, [.RTC]⟩,
  ⟨chars "Mark", chars "consumer.Mark", 0xc00c2, [.OSC]⟩,
  ⟨chars "ClearMark", chars "consumer.ClearMark", 0xc00c3, [.OSC]⟩,
  ⟨chars "RepeatFromMark", chars "consumer.RepeatFromMark", 0xc00c4, [.OOC]⟩,
  ⟨chars "ReturnToMark", chars "consumer.ReturnToMark", 0xc00c5, [.OSC]⟩,
  ⟨chars "SearchMarkForward", chars "consumer.SearchMarkForward", 0xc00c6, [.OSC]⟩,
  ⟨chars "SearchMarkBackwards", chars "consumer.SearchMarkBackwards", 0xc00c7, [.OSC]⟩,
  ⟨chars "CounterReset", chars "consumer.CounterReset", 0xc00c8, [.OSC]⟩,
  ⟨chars "ShowCounter", chars "consumer.ShowCounter", 0xc00c9, [.OSC]⟩,
  ⟨chars "TrackingIncrement", chars "consumer.TrackingIncrement", 0xc00ca, [.RTC]⟩,
  ⟨chars "TrackingDecrement", chars "consumer.TrackingDecrement", 0xc00cb, [.RTC]⟩,
  ⟨chars "StopEject", chars "consumer.StopEject", 0xc00cc, [.OSC]⟩,
  ⟨chars "PlayPause", chars "consumer.PlayPause", 0xc00cd, [.OSC]⟩,
  ⟨chars "PlaySkip", chars "consumer.PlaySkip", 0xc00ce, [.OSC]⟩,
  ⟨chars "VoiceCommand", chars "consumer.VoiceCommand", 0xc00cf, [.OSC]⟩,
  ⟨chars "Volume", chars "consumer.Volume", 0xc00e0, [.LC]⟩,
  ⟨chars "Balance", chars "consumer.Balance", 0xc00e1, [.LC]⟩,
  ⟨chars "Mute", chars "consumer.Mute", 0xc00e2, [.OOC]⟩,
  ⟨chars "Bass", chars "consumer.Bass", 0xc00e3, [.LC]⟩,
  ⟨chars "Treble", chars "consumer.Treble", 0xc00e4, [.LC]⟩,
  ⟨chars "BassBoost", chars "consumer.BassBoost", 0xc00e5, [.OOC]⟩,
  ⟨chars "SurroundMode", chars "consumer.SurroundMode", 0xc00e6, [.OSC]⟩,
  ⟨chars "Loudness", chars "consumer.Loudness", 0xc00e7, [.OOC]⟩,
  ⟨chars "Mpx", chars "consumer.Mpx", 0xc00e8, [.OOC]⟩,
  ⟨chars "VolumeIncrement", chars "consumer.VolumeIncrement", 0xc00e9, [.RTC]⟩,
  ⟨chars "VolumeDecrement", chars "consumer.VolumeDecrement", 0xc00ea, [.RTC]⟩,
  ⟨chars "SpeedSelect", chars "consumer.SpeedSelect", 0xc00f0, [.OSC]⟩,
  ⟨chars "PlaybackSpeed", chars "consumer.PlaybackSpeed", 0xc00f1, [.NAry]⟩,
  ⟨chars "StandardPlay", chars "consumer.StandardPlay", 0xc00f2, [.Sel]⟩,
  ⟨chars "LongPlay", chars "consumer.LongPlay", 0xc00f3, [.Sel]⟩,
  ⟨chars "ExtendedPlay", chars "consumer.ExtendedPlay", 0xc00f4, [.Sel]⟩,
  ⟨chars "Slow", chars "consumer.Slow", 0xc00f5, [.OSC]⟩,
  ⟨chars "FanEnable", chars "consumer.FanEnable", 0xc0100, [.OOC]⟩,
  ⟨chars "FanSpeed", chars "consumer.FanSpeed", 0xc0101, [.LC]⟩,
  ⟨chars "LightEnable", chars "consumer.LightEnable", 0xc0102, [.OOC]⟩,
  ⟨chars "LightIlluminationLevel", chars "consumer.LightIlluminationLevel", 0xc0103, [.LC]⟩,
  ⟨chars "ClimateControlEnable", chars "consumer.ClimateControlEnable", 0xc0104, [.OOC]⟩,
  ⟨chars "RoomTemperature", chars "consumer.RoomTemperature", 0xc0105, [.LC]⟩,
  ⟨chars "SecurityEnable", chars "consumer.SecurityEnable", 0xc0106, [.OOC]⟩,
  ⟨chars "FireAlarm", chars "consumer.FireAlarm", 0xc0107, [.OSC]⟩,
  ⟨chars "PoliceAlarm", chars "consumer.PoliceAlarm", 0xc0108, [.OSC]⟩,
  ⟨chars "Proximity", chars "consumer.Proximity", 0xc0109, [.LC]⟩,
  ⟨chars "Motion", chars "consumer.Motion", 0xc010a, [.OSC]⟩,
  ⟨chars "DuressAlarm", chars "consumer.DuressAlarm", 0xc010b, [.OSC]⟩,
  ⟨chars "HoldupAlarm", chars "consumer.HoldupAlarm", 0xc010c, [.OSC]⟩,
  ⟨chars "MedicalAlarm", chars "consumer.MedicalAlarm", 0xc010d, [.OSC]⟩,
  ⟨chars "BalanceRight", chars "consumer.BalanceRight", 0xc0150, [.RTC]⟩,
  ⟨chars "BalanceLeft", chars "consumer.BalanceLeft", 0xc0151, [.RTC]⟩,
  ⟨chars "BassIncrement", chars "consumer.BassIncrement", 0xc0152, [.RTC]⟩,
  ⟨chars "BassDecrement", chars "consumer.BassDecrement", 0xc0153, [.RTC]⟩,
  ⟨chars "TrebleIncrement", chars "consumer.TrebleIncrement", 0xc0154, [.RTC]⟩,
  ⟨chars "TrebleDecrement", chars "consumer.TrebleDecrement", 0xc0155, [.RTC]⟩,
  ⟨chars "SpeakerSystem", chars "consumer.SpeakerSystem", 0xc0160, [.CL]⟩,
  ⟨chars "ChannelLeft", chars "consumer.ChannelLeft", 0xc0161, [.CL]⟩,
  ⟨chars "ChannelRight", chars "consumer.ChannelRight", 0xc0162, [.CL]⟩,
  ⟨chars "ChannelCenter", chars "consumer.ChannelCenter", 0xc0163, [.CL]⟩,
  ⟨chars "ChannelFront", chars "consumer.ChannelFront", 0xc0164, [.CL]⟩,
  ⟨chars "ChannelCenterFront", chars "consumer.ChannelCenterFront", 0xc0165, [.CL]⟩,
  ⟨chars "ChannelSide", chars "consumer.ChannelSide", 0xc0166, [.CL]⟩,
  ⟨chars "ChannelSurround", chars "consumer.ChannelSurround", 0xc0167, [.CL]⟩,
  ⟨chars "ChannelLowFrequencyEnhancement", chars "consumer.ChannelLowFrequencyEnhancement", 0xc0168, [.CL]⟩,
  ⟨chars "ChannelTop", chars "consumer.ChannelTop", 0xc0169, [.CL]⟩,
  ⟨chars "ChannelUnknown", chars "consumer.ChannelUnknown", 0xc016a, [.CL]⟩,
  ⟨chars "SubChannel", chars "consumer.SubChannel", 0xc0170, [.LC]⟩,
  ⟨chars "SubChannelIncrement", chars "consumer.SubChannelIncrement", 0xc0171, [.OSC]⟩,
  ⟨chars "SubChannelDecrement", chars "consumer.SubChannelDecrement", 0xc0172, [.OSC]⟩,
  ⟨chars "AlternateAudioIncrement", chars "consumer.AlternateAudioIncrement", 0xc0173, [.OSC]⟩,
  ⟨chars "AlternateAudioDecrement", chars "consumer.AlternateAudioDecrement", 0xc0174, [.OSC]⟩,
  ⟨chars "ApplicationLaunchButtons", chars "consumer.ApplicationLaunchButtons", 0xc0180, [.NAry]⟩,
  ⟨chars "AlLaunchButtonConfigurationTool", chars "consumer.AlLaunchButtonConfigurationTool", 0xc0181, [.Sel]⟩,
  ⟨chars "AlProgrammableButtonConfiguration", chars "consumer.AlProgrammableButtonConfiguration", 0xc0182, [.Sel]⟩,
  ⟨chars "AlConsumerControlConfiguration", chars "consumer.AlConsumerControlConfiguration", 0xc0183, [.Sel]⟩,
  ⟨chars "AlWordProcessor", chars "consumer.AlWordProcessor", 0xc0184, [.Sel]⟩,
  ⟨chars "AlTextEditor", chars "consumer.AlTextEditor", 0xc0185, [.Sel]⟩,
  ⟨chars "AlSpreadsheet", chars "consumer.AlSpreadsheet", 0xc0186, [.Sel]⟩,
  ⟨chars "AlGraphicsEditor", chars "consumer.AlGraphicsEditor", 0xc0187, [.Sel]⟩,
  ⟨chars "AlPresentationApp", chars "consumer.AlPresentationApp", 0xc0188, [.Sel]⟩,
  ⟨chars "AlDatabaseApp", chars "consumer.AlDatabaseApp", 0xc0189, [.Sel]⟩,
  ⟨chars "AlEmailReader", chars "consumer.AlEmailReader", 0xc018a, [.Sel]⟩,
  ⟨chars "AlNewsreader", chars "consumer.AlNewsreader", 0xc018b, [.Sel]⟩,
  ⟨chars "AlVoicemail", chars "consumer.AlVoicemail", 0xc018c, [.Sel]⟩,
  ⟨chars "AlContactsAddressBook", chars "consumer.AlContactsAddressBook", 0xc018d, [.Sel]⟩,
  ⟨chars "AlCalendarSchedule", chars "consumer.AlCalendarSchedule", 0xc018e, [.Sel]⟩,
  ⟨chars "AlTaskProjectManager", chars "consumer.AlTaskProjectManager", 0xc018f, [.Sel]⟩,
  ⟨chars "AlLogJournalTimecard", chars "consumer.AlLogJournalTimecard", 0xc0190, [.Sel]⟩,
  ⟨chars "AlCheckbookFinance", chars "consumer.AlCheckbookFinance", 0xc0191, [.Sel]⟩,
  ⟨chars "AlCalculator", chars "consumer.AlCalculator", 0xc0192, [.Sel]⟩,
  ⟨chars "AlAVCapturePlayback", chars "consumer.AlAVCapturePlayback", 0xc0193, [.Sel]⟩,
  ⟨chars "AlLocalMachineBrowser", chars "consumer.AlLocalMachineBrowser", 0xc0194, [.Sel]⟩,
  ⟨chars "AlLanWanBrowser", chars "consumer.AlLanWanBrowser", 0xc0195, [.Sel]⟩,
  ⟨chars "AlInternetBrowser", chars "consumer.AlInternetBrowser", 0xc0196, [.Sel]⟩,
  ⟨chars "AlRemoteNetworkingIspConnect", chars "consumer.AlRemoteNetworkingIspConnect", 0xc0197, [.Sel]⟩,
  ⟨chars "AlNetworkConference", chars "consumer.AlNetworkConference", 0xc0198, [.Sel]⟩,
  ⟨chars "AlNetworkChat", chars "consumer.AlNetworkChat", 0xc0199, [.Sel]⟩,
  ⟨chars "AlTelephonyDialer", chars "consumer.AlTelephonyDialer", 0xc019a, [.Sel]⟩,
  ⟨chars "AlLogon", chars "consumer.AlLogon", 0xc019b, [.Sel]⟩,
  ⟨chars "AlLogoff", chars "consumer.AlLogoff", 0xc019c, [.Sel]⟩,
  ⟨chars "AlLogonLogoff", chars "consumer.AlLogonLogoff", 0xc019d, [.Sel]⟩,
  ⟨chars "AlTerminalLockScreensaver", chars "consumer.AlTerminalLockScreensaver", 0xc019e, [.Sel]⟩,
  ⟨chars "AlControlPanel", chars "consumer.AlControlPanel", 0xc019f, [.Sel]⟩,
  ⟨chars "AlCommandLineProcessorRun", chars "consumer.AlCommandLineProcessorRun", 0xc01a0, [.Sel]⟩,
  ⟨chars "AlProcessTaskManager", chars "consumer.AlProcessTaskManager", 0xc01a1, [.Sel]⟩,
  ⟨chars "AlSelectTaskApplication", chars "consumer.AlSelectTaskApplication", 0xc01a2, [.Sel]⟩,
  ⟨chars "AlNextTaskApplication", chars "consumer.AlNextTaskApplication", 0xc01a3, [.Sel]⟩,
  ⟨chars "AlPreviousTaskApplication", chars "consumer.AlPreviousTaskApplication", 0xc01a4, [.Sel]⟩,
  ⟨chars "AlPreemptiveHaltTaskApplication", chars "consumer.AlPreemptiveHaltTaskApplication", 0xc01a5, [.Sel]⟩,
  ⟨chars "AlIntegratedHelpCenter", chars "consumer.AlIntegratedHelpCenter", 0xc01a6, [.Sel]⟩,
  ⟨chars "AlDocuments", chars "consumer.AlDocuments", 0xc01a7, [.Sel]⟩,
  ⟨chars "AlThesaurus", chars "consumer.AlThesaurus", 0xc01a8, [.Sel]⟩,
  ⟨chars "AlDictionary", chars "consumer.AlDictionary", 0xc01a9, [.Sel]⟩,
  ⟨chars "AlDesktop", chars "consumer.AlDesktop", 0xc01aa, [.Sel]⟩,
  ⟨chars "AlSpellCheck", chars "consumer.AlSpellCheck", 0xc01ab, [.Sel]⟩,
  ⟨chars "AlGrammarCheck", chars "consumer.AlGrammarCheck", 0xc01ac, [.Sel]⟩,
  ⟨chars "AlWirelessStatus", chars "consumer.AlWirelessStatus", 0xc01ad, [.Sel]⟩,
  ⟨chars "AlKeyboardLayout", chars "consumer.AlKeyboardLayout", 0xc01ae, [.Sel]⟩,
  ⟨chars "AlVirusProtection", chars "consumer.AlVirusProtection", 0xc01af, [.Sel]⟩,
  ⟨chars "AlEncryption", chars "consumer.AlEncryption", 0xc01b0, [.Sel]⟩,
  ⟨chars "AlScreenSaver", chars "consumer.AlScreenSaver", 0xc01b1, [.Sel]⟩,
  ⟨chars "AlAlarms", chars "consumer.AlAlarms", 0xc01b2, [.Sel]⟩,
  ⟨chars "AlClock", chars "consumer.AlClock", 0xc01b3, [.Sel]⟩,
  ⟨chars "AlFileBrowser", chars "consumer.AlFileBrowser", 0xc01b4, [.Sel]⟩,
  ⟨chars "AlPowerStatus", chars "consumer.AlPowerStatus", 0xc01b5, [.Sel]⟩,
  ⟨chars "AlImageBrowser", chars "consumer.AlImageBrowser", 0xc01b6, [.Sel]⟩,
  ⟨chars "AlAudioBrowser", chars "consumer.AlAudioBrowser", 0xc01b7, [.Sel]⟩,
  ⟨chars "AlMovieBrowser", chars "consumer.AlMovieBrowser", 0xc01b8, [.Sel]⟩,
  ⟨chars "AlDigitalRightsManager", chars "consumer.AlDigitalRightsManager", 0xc01b9, [.Sel]⟩,
  ⟨chars "AlDigitalWallet", chars "consumer.AlDigitalWallet", 0xc01ba, [.Sel]⟩,
  ⟨chars "AlInstantMessaging", chars "consumer.AlInstantMessaging", 0xc01bc, [.Sel]⟩,
  ⟨chars "AlOemFeaturesTipsTutorialBrowser", chars "consumer.AlOemFeaturesTipsTutorialBrowser", 0xc01bd, [.Sel]⟩,
  ⟨chars "AlOemHelp", chars "consumer.AlOemHelp", 0xc01be, [.Sel]⟩,
  ⟨chars "AlOnlineCommunity", chars "consumer.AlOnlineCommunity", 0xc01bf, [.Sel]⟩,
  ⟨chars "AlEntertainmentContentBrowser", chars "consumer.AlEntertainmentContentBrowser", 0xc01c0, [.Sel]⟩,
  ⟨chars "AlOnlineShoppingBrowser", chars "consumer.AlOnlineShoppingBrowser", 0xc01c1, [.Sel]⟩,
  ⟨chars "AlSmartcardInformationHelp", chars "consumer.AlSmartcardInformationHelp", 0xc01c2, [.Sel]⟩,
  ⟨chars "AlMarketMonitorFinanceBrowser", chars "consumer.AlMarketMonitorFinanceBrowser", 0xc01c3, [.Sel]⟩,
  ⟨chars "AlCustomizedCorporateNewsBrowser", chars "consumer.AlCustomizedCorporateNewsBrowser", 0xc01c4, [.Sel]⟩,
  ⟨chars "AlOnlineActivityBrowser", chars "consumer.AlOnlineActivityBrowser", 0xc01c5, [.Sel]⟩,
  ⟨chars "AlResearchSearchBrowser", chars "consumer.AlResearchSearchBrowser", 0xc01c6, [.Sel]⟩,
  ⟨chars "AlAudioPlayer", chars "consumer.AlAudioPlayer", 0xc01c7, [.Sel]⟩,
  ⟨chars "GenericGuiApplicationControls", chars "consumer.GenericGuiApplicationControls", 0xc0200, [.NAry]⟩,
  ⟨chars "AcNew", chars "consumer.AcNew", 0xc0201, [.Sel]⟩,
  ⟨chars "AcOpen", chars "consumer.AcOpen", 0xc0202, [.Sel]⟩,
  ⟨chars "AcClose", chars "consumer.AcClose", 0xc0203, [.Sel]⟩,
  ⟨chars "AcExit", chars "consumer.AcExit", 0xc0204, [.Sel]⟩,
  ⟨chars "AcMaximize", chars "consumer.AcMaximize", 0xc0205, [.Sel]⟩,
  ⟨chars "AcMinimize", chars "consumer.AcMinimize", 0xc0206, [.Sel]⟩,
  ⟨chars "AcSave", chars "consumer.AcSave", 0xc0207, [.Sel]⟩,
  ⟨chars "AcPrint", chars "consumer.AcPrint", 0xc0208, [.Sel]⟩,
  ⟨chars "AcProperties", chars "consumer.AcProperties", 0xc0209, [.Sel]⟩,
  ⟨chars "AcUndo", chars "consumer.AcUndo", 0xc021a, [.Sel]⟩,
  ⟨chars "AcCopy", chars "consumer.AcCopy", 0xc021b, [.Sel]⟩,
  ⟨chars "AcCut", chars "consumer.AcCut", 0xc021c, [.Sel]⟩,
  ⟨chars "AcPaste", chars "consumer.AcPaste", 0xc021d, [.Sel]⟩,
  ⟨chars "AcSelectAll", chars "consumer.AcSelectAll", 0xc021e, [.Sel]⟩,
  ⟨chars "AcFind", chars "consumer.AcFind", 0xc021f, [.Sel]⟩,
  ⟨chars "AcFindAndReplace", chars "consumer.AcFindAndReplace", 0xc0220, [.Sel]⟩,
  ⟨chars "AcSearch", chars "consumer.AcSearch", 0xc0221, [.Sel]⟩,
  ⟨chars "AcGoTo", chars "consumer.AcGoTo", 0xc0222, [.Sel]⟩,
  ⟨chars "AcHome", chars "consumer.AcHome", 0xc0223, [.Sel]⟩,
  ⟨chars "AcBack", chars "consumer.AcBack", 0xc0224, [.Sel]⟩,
  ⟨chars "AcForward", chars "consumer.AcForward", 0xc0225, [.Sel]⟩,
  ⟨chars "AcStop", chars "consumer.AcStop", 0xc0226, [.Sel]⟩,
  ⟨chars "AcRefresh", chars "consumer.AcRefresh", 0xc0227, [.Sel]⟩,
  ⟨chars "AcPreviousLink", chars "consumer.AcPreviousLink", 0xc0228, [.Sel]⟩,
  ⟨chars "AcNextLink", chars "consumer.AcNextLink", 0xc0229, [.Sel]⟩,
  ⟨chars "AcBookmarks", chars "consumer.AcBookmarks", 0xc022a, [.Sel]⟩,
  ⟨chars "AcHistory", chars "consumer.AcHistory", 0xc022b, [.Sel]⟩,
  ⟨chars "AcSubscriptions", chars "consumer.AcSubscriptions", 0xc022c, [.Sel]⟩,
  ⟨chars "AcZoomIn", chars "consumer.AcZoomIn", 0xc022d, [.Sel]⟩,
  ⟨chars "AcZoomOut", chars "consumer.AcZoomOut", 0xc022e, [.Sel]⟩,
  ⟨chars "AcZoom", chars "consumer.AcZoom", 0xc022f, [.LC]⟩,
  ⟨chars "AcFullScreenView", chars "consumer.AcFullScreenView", 0xc0230, [.Sel]⟩,
  ⟨chars "AcNormalView", chars "consumer.AcNormalView", 0xc0231, [.Sel]⟩,
  ⟨chars "AcViewToggle", chars "consumer.AcViewToggle", 0xc0232, [.Sel]⟩,
  ⟨chars "AcScrollUp", chars "consumer.AcScrollUp", 0xc0233, [.Sel]⟩,
  ⟨chars "AcScrollDown", chars "consumer.AcScrollDown", 0xc0234, [.Sel]⟩,
  ⟨chars "AcScroll", chars "consumer.AcScroll", 0xc0235, [.LC]⟩,
  ⟨chars "AcPanLeft", chars "consumer.AcPanLeft", 0xc0236, [.Sel]⟩,
  ⟨chars "AcPanRight", chars "consumer.AcPanRight", 0xc0237, [.Sel]⟩,
  ⟨chars "AcPan", chars "consumer.AcPan", 0xc0238, [.LC]⟩,
  ⟨chars "AcNewWindow", chars "consumer.AcNewWindow", 0xc0239, [.Sel]⟩,
  ⟨chars "AcTileHorizontally", chars "consumer.AcTileHorizontally", 0xc023a, [.Sel]⟩,
  ⟨chars "AcTileVertically", chars "consumer.AcTileVertically", 0xc023b, [.Sel]⟩,
  ⟨chars "AcFormat", chars "consumer.AcFormat", 0xc023c, [.Sel]⟩,
  ⟨chars "AcEdit", chars "consumer.AcEdit", 0xc023d, [.Sel]⟩,
  ⟨chars "AcBold", chars "consumer.AcBold", 0xc023e, [.Sel]⟩,
  ⟨chars "AcItalics", chars "consumer.AcItalics", 0xc023f, [.Sel]⟩,
  ⟨chars "AcUnderline", chars "consumer.AcUnderline", 0xc0240, [.Sel]⟩,
  ⟨chars "AcStrikethrough", chars "consumer.AcStrikethrough", 0xc0241, [.Sel]⟩,
  ⟨chars "AcSubscript", chars "consumer.AcSubscript", 0xc0242, [.Sel]⟩,
  ⟨chars "AcSuperscript", chars "consumer.AcSuperscript", 0xc0243, [.Sel]⟩,
  ⟨chars "AcAllCaps", chars "consumer.AcAllCaps", 0xc0244, [.Sel]⟩,
  ⟨chars "AcRotate", chars "consumer.AcRotate", 0xc0245, [.Sel]⟩,
  ⟨chars "AcResize", chars "consumer.AcResize", 0xc0246, [.Sel]⟩,
  ⟨chars "AcFlipHorizontal", chars "consumer.AcFlipHorizontal", 0xc0247, [.Sel]⟩,
  ⟨chars "AcFlipVertical", chars "consumer.AcFlipVertical", 0xc0248, [.Sel]⟩,
  ⟨chars "AcMirrorHorizontal", chars "consumer.AcMirrorHorizontal", 0xc0249, [.Sel]⟩,
  ⟨chars "AcMirrorVertical", chars "consumer.AcMirrorVertical", 0xc024a, [.Sel]⟩,
  ⟨chars "AcFontSelect", chars "consumer.AcFontSelect", 0xc024b, [.Sel]⟩,
  ⟨chars "AcFontColor", chars "consumer.AcFontColor", 0xc024c, [.Sel]⟩,
  ⟨chars "AcFontSize", chars "consumer.AcFontSize", 0xc024d, [.Sel]⟩,
  ⟨chars "AcJustifyLeft", chars "consumer.AcJustifyLeft", 0xc024e, [.Sel]⟩,
  ⟨chars "AcJustifyCenterH", chars "consumer.AcJustifyCenterH", 0xc024f, [.Sel]⟩,
  ⟨chars "AcJustifyRight", chars "consumer.AcJustifyRight", 0xc0250, [.Sel]⟩,
  ⟨chars "AcJustifyBlockH", chars "consumer.AcJustifyBlockH", 0xc0251, [.Sel]⟩,
  ⟨chars "AcJustifyTop", chars "consumer.AcJustifyTop", 0xc0252, [.Sel]⟩,
  ⟨chars "AcJustifyCenterV", chars "consumer.AcJustifyCenterV", 0xc0253, [.Sel]⟩,
  ⟨chars "AcJustifyBottom", chars "consumer.AcJustifyBottom", 0xc0254, [.Sel]⟩,
  ⟨chars "AcJustifyBlockV", chars "consumer.AcJustifyBlockV", 0xc0255, [.Sel]⟩,
  ⟨chars "AcIndentDecrease", chars "consumer.AcIndentDecrease", 0xc0256, [.Sel]⟩,
  ⟨chars "AcIndentIncrease", chars "consumer.AcIndentIncrease", 0xc0257, [.Sel]⟩,
  ⟨chars "AcNumberedList", chars "consumer.AcNumberedList", 0xc0258, [.Sel]⟩,
  ⟨chars "AcRestartNumbering", chars "consumer.AcRestartNumbering", 0xc0259, [.Sel]⟩,
  ⟨chars "AcBulletedList", chars "consumer.AcBulletedList", 0xc025a, [.Sel]⟩,
  ⟨chars "AcPromote", chars "consumer.AcPromote", 0xc025b, [.Sel]⟩,
  ⟨chars "AcDemote", chars "consumer.AcDemote", 0xc025c, [.Sel]⟩,
  ⟨chars "AcYes", chars "consumer.AcYes", 0xc025d, [.Sel]⟩,
  ⟨chars "AcNo", chars "consumer.AcNo", 0xc025e, [.Sel]⟩,
  ⟨chars "AcCancel", chars "consumer.AcCancel", 0xc025f, [.Sel]⟩,
  ⟨chars "AcCatalog", chars "consumer.AcCatalog", 0xc0260, [.Sel]⟩,
  ⟨chars "AcBuyCheckout", chars "consumer.AcBuyCheckout", 0xc0261, [.Sel]⟩,
  ⟨chars "AcAddToCart", chars "consumer.AcAddToCart", 0xc0262, [.Sel]⟩,
  ⟨chars "AcExpand", chars "consumer.AcExpand", 0xc0263, [.Sel]⟩,
  ⟨chars "AcExpandAll", chars "consumer.AcExpandAll", 0xc0264, [.Sel]⟩,
  ⟨chars "AcCollapse", chars "consumer.AcCollapse", 0xc0265, [.Sel]⟩,
  ⟨chars "AcCollapseAll", chars "consumer.AcCollapseAll", 0xc0266, [.Sel]⟩,
  ⟨chars "AcPrintPreview", chars "consumer.AcPrintPreview", 0xc0267, [.Sel]⟩,
  ⟨chars "AcPasteSpecial", chars "consumer.AcPasteSpecial", 0xc0268, [.Sel]⟩,
  ⟨chars "AcInsertMode", chars "consumer.AcInsertMode", 0xc0269, [.Sel]⟩,
  ⟨chars "AcDelete", chars "consumer.AcDelete", 0xc026a, [.Sel]⟩,
  ⟨chars "AcLock", chars "consumer.AcLock", 0xc026b, [.Sel]⟩,
  ⟨chars "AcUnlock", chars "consumer.AcUnlock", 0xc026c, [.Sel]⟩,
  ⟨chars "AcProtect", chars "consumer.AcProtect", 0xc026d, [.Sel]⟩,
  ⟨chars "AcUnprotect", chars "consumer.AcUnprotect", 0xc026e, [.Sel]⟩,
  ⟨chars "AcAttachComment", chars "consumer.AcAttachComment", 0xc026f, [.Sel]⟩,
  ⟨chars "AcDeleteComment", chars "consumer.AcDeleteComment", 0xc0270, [.Sel]⟩,
  ⟨chars "AcViewComment", chars "consumer.AcViewComment", 0xc0271, [.Sel]⟩,
  ⟨chars "AcSelectWord", chars "consumer.AcSelectWord", 0xc0272, [.Sel]⟩,
  ⟨chars "AcSelectSentence", chars "consumer.AcSelectSentence", 0xc0273, [.Sel]⟩,
  ⟨chars "AcSelectParagraph", chars "consumer.AcSelectParagraph", 0xc0274, [.Sel]⟩,
  ⟨chars "AcSelectColumn", chars "consumer.AcSelectColumn", 0xc0275, [.Sel]⟩,
  ⟨chars "AcSelectRow", chars "consumer.AcSelectRow", 0xc0276, [.Sel]⟩,
  ⟨chars "AcSelectTable", chars "consumer.AcSelectTable", 0xc0277, [.Sel]⟩,
  ⟨chars "AcSelectObject", chars "consumer.AcSelectObject", 0xc0278, [.Sel]⟩,
  ⟨chars "AcRedoRepeat", chars "consumer.AcRedoRepeat", 0xc0279, [.Sel]⟩,
  ⟨chars "AcSort", chars "consumer.AcSort", 0xc027a, [.Sel]⟩,
  ⟨chars "AcSortAscending", chars "consumer.AcSortAscending", 0xc027b, [.Sel]⟩,
  ⟨chars "AcSortDescending", chars "consumer.AcSortDescending", 0xc027c, [.Sel]⟩,
  ⟨chars "AcFilter", chars "consumer.AcFilter", 0xc027d, [.Sel]⟩,
  ⟨chars "AcSetClock", chars "consumer.AcSetClock", 0xc027e, [.Sel]⟩,
  ⟨chars "AcViewClock", chars "consumer.AcViewClock", 0xc027f, [.Sel]⟩,
  ⟨chars "AcSelectTimeZone", chars "consumer.AcSelectTimeZone", 0xc0280, [.Sel]⟩,
  ⟨chars "AcEditTimeZones", chars "consumer.AcEditTimeZones", 0xc0281, [.Sel]⟩,
  ⟨chars "AcSetAlarm", chars "consumer.AcSetAlarm", 0xc0282, [.Sel]⟩,
  ⟨chars "AcClearAlarm", chars "consumer.AcClearAlarm", 0xc0283, [.Sel]⟩,
  ⟨chars "AcSnoozeAlarm", chars "consumer.AcSnoozeAlarm", 0xc0284, [.Sel]⟩,
  ⟨chars "AcResetAlarm", chars "consumer.AcResetAlarm", 0xc0285, [.Sel]⟩,
  ⟨chars "AcSynchronize", chars "consumer.AcSynchronize", 0xc0286, [.Sel]⟩,
  ⟨chars "AcSendReceive", chars "consumer.AcSendReceive", 0xc0287, [.Sel]⟩,
  ⟨chars "AcSendTo", chars "consumer.AcSendTo", 0xc0288, [.Sel]⟩,
  ⟨chars "AcReply", chars "consumer.AcReply", 0xc0289, [.Sel]⟩,
  ⟨chars "AcReplyAll", chars "consumer.AcReplyAll", 0xc028a, [.Sel]⟩,
  ⟨chars "AcForwardMsg", chars "consumer.AcForwardMsg", 0xc028b, [.Sel]⟩,
  ⟨chars "AcSend", chars "consumer.AcSend", 0xc028c, [.Sel]⟩,
  ⟨chars "AcAttachFile", chars "consumer.AcAttachFile", 0xc028d, [.Sel]⟩,
  ⟨chars "AcUpload", chars "consumer.AcUpload", 0xc028e, [.Sel]⟩,
  ⟨chars "AcDownload", chars "consumer.AcDownload", 0xc028f, [.Sel]⟩,
  ⟨chars "AcSetBorders", chars "consumer.AcSetBorders", 0xc0290, [.Sel]⟩,
  ⟨chars "AcInsertRow", chars "consumer.AcInsertRow", 0xc0291, [.Sel]⟩,
  ⟨chars "AcInsertColumn", chars "consumer.AcInsertColumn", 0xc0292, [.Sel]⟩,
  ⟨chars "AcInsertFile", chars "consumer.AcInsertFile", 0xc0293, [.Sel]⟩,
  ⟨chars "AcInsertPicture", chars "consumer.AcInsertPicture", 0xc0294, [.Sel]⟩,
  ⟨chars "AcInsertObject", chars "consumer.AcInsertObject", 0xc0295, [.Sel]⟩,
  ⟨chars "AcInsertSymbol", chars "consumer.AcInsertSymbol", 0xc0296, [.Sel]⟩,
  ⟨chars "AcSaveAndClose", chars "consumer.AcSaveAndClose", 0xc0297, [.Sel]⟩,
  ⟨chars "AcRename", chars "consumer.AcRename", 0xc0298, [.Sel]⟩,
  ⟨chars "AcMerge", chars "consumer.AcMerge", 0xc0299, [.Sel]⟩,
  ⟨chars "AcSplit", chars "consumer.AcSplit", 0xc029a, [.Sel]⟩,
  ⟨chars "AcDisributeHorizontally", chars "consumer.AcDisributeHorizontally", 0xc029b, [.Sel]⟩,
  ⟨chars "AcDistributeVertically", chars "consumer.AcDistributeVertically", 0xc029c, [.Sel]⟩,
  ⟨chars "ExtendedKeyboardAttributesCollection", chars "consumer.ExtendedKeyboardAttributesCollection", 0xc02c0, [.CL]⟩,
  ⟨chars "KeyboardFormFactor", chars "consumer.KeyboardFormFactor", 0xc02c1, [.SV]⟩,
  ⟨chars "KeyboardKeyType", chars "consumer.KeyboardKeyType", 0xc02c2, [.SV]⟩,
  ⟨chars "KeyboardPhysicalLayout", chars "consumer.KeyboardPhysicalLayout", 0xc02c3, [.SV]⟩,
  ⟨chars "VendorSpecificKeyboardPhysicalLayout", chars "consumer.VendorSpecificKeyboardPhysicalLayout", 0xc02c4, [.SV]⟩,
  ⟨chars "KeyboardIETFLanguageTagIndex", chars "consumer.KeyboardIETFLanguageTagIndex", 0xc02c5, [.SV]⟩,
  ⟨chars "ImplementedKeyboardInputAssistControls", chars "consumer.ImplementedKeyboardInputAssistControls", 0xc02c6, [.SV]⟩,
  ⟨chars "KeyboardInputAssistPrevious", chars "consumer.KeyboardInputAssistPrevious", 0xc02c7, [.Sel]⟩,
  ⟨chars "KeyboardInputAssistNext", chars "consumer.KeyboardInputAssistNext", 0xc02c8, [.Sel]⟩,
  ⟨chars "KeyboardInputAssistPreviousGroup", chars "consumer.KeyboardInputAssistPreviousGroup", 0xc02c9, [.Sel]⟩,
  ⟨chars "KeyboardInputAssistNextGroup", chars "consumer.KeyboardInputAssistNextGroup", 0xc02ca, [.Sel]⟩,
  ⟨chars "KeyboardInputAssistAccept", chars "consumer.KeyboardInputAssistAccept", 0xc02cb, [.Sel]⟩,
  ⟨chars "KeyboardInputAssistCancel", chars "consumer.KeyboardInputAssistCancel", 0xc02cc, [.Sel]⟩]

/-- `hrdc/usage/simulation.py:3-53`. -/
def simulation : List Row := [
  ⟨chars "FlightSimulationDevice", chars "simulation.FlightSimulationDevice", 0x20001, [.CA]⟩,
  ⟨chars "AutomobileSimulationDevice", chars "simulation.AutomobileSimulationDevice", 0x20002, [.CA]⟩,
  ⟨chars "TankSimulationDevice", chars "simulation.TankSimulationDevice", 0x20003, [.CA]⟩,
  ⟨chars "SpaceshipSimulationDevice", chars "simulation.SpaceshipSimulationDevice", 0x20004, [.CA]⟩,
  ⟨chars "SubmarineSimulationDevice", chars "simulation.SubmarineSimulationDevice", 0x20005, [.CA]⟩,
  ⟨chars "SailingSimulationDevice", chars "simulation.SailingSimulationDevice", 0x20006, [.CA]⟩,
  ⟨chars "MotorcycleSimulationDevice", chars "simulation.MotorcycleSimulationDevice", 0x20007, [.CA]⟩,
  ⟨chars "SportsSimulationDevice", chars "simulation.SportsSimulationDevice", 0x20008, [.CA]⟩,
  ⟨chars "AirplaneSimulationDevice", chars "simulation.AirplaneSimulationDevice", 0x20009, [.CA]⟩,
  ⟨chars "HelicopterSimulationDevice", chars "simulation.HelicopterSimulationDevice", 0x2000a, [.CA]⟩,
  ⟨chars "MagicCarpetSimulationDevice", chars "simulation.MagicCarpetSimulationDevice", 0x2000b, [.CA]⟩,
  ⟨chars "BicycleSimulationDevice", chars "simulation.BicycleSimulationDevice", 0x2000c, [.CA]⟩,
  ⟨chars "FlightControlStick", chars "simulation.FlightControlStick", 0x20020, [.CA]⟩,
  ⟨chars "FlightStick", chars "simulation.FlightStick", 0x20021, [.CA]⟩,
  ⟨chars "CyclicControl", chars "simulation.CyclicControl", 0x20022, [.CP]⟩,
  ⟨chars "CyclicTrim", chars "simulation.CyclicTrim", 0x20023, [.CP]⟩,
  ⟨chars "FlightYoke", chars "simulation.FlightYoke", 0x20024, [.CA]⟩,
  ⟨chars "TrackControl", chars "simulation.TrackControl", 0x20025, [.CP]⟩,
  ⟨chars "Aileron", chars "simulation.Aileron", 0x200b0, [.DV]⟩,
  ⟨chars "AileronTrim", chars "simulation.AileronTrim", 0x200b1, [.DV]⟩,
  ⟨chars "AntiTorqueControl", chars "simulation.TorqueControl", 0x200b2, [.DV]⟩,
  ⟨chars "AutopilotEnable", chars "simulation.AutopilotEnable", 0x200b3, [.OOC]⟩,
  ⟨chars "ChaffRelease", chars "simulation.ChaffRelease", 0x200b4, [.OSC]⟩,
  ⟨chars "CollectiveControl", chars "simulation.CollectiveControl", 0x200b5, [.DV]⟩,
  ⟨chars "DiveBrake", chars "simulation.DiveBrake", 0x200b6, [.DV]⟩,
  ⟨chars "ElectronicCountermeasures", chars "simulation.ElectronicCountermeasures", 0x200b7, [.OOC]⟩,
  ⟨chars "Elevator", chars "simulation.Elevator", 0x200b8, [.DV]⟩,
  ⟨chars "ElevatorTrim", chars "simulation.ElevatorTrim", 0x200b9, [.DV]⟩,
  ⟨chars "Rudder", chars "simulation.Rudder", 0x200ba, [.DV]⟩,
  ⟨chars "Throttle", chars "simulation.Throttle", 0x200bb, [.DV]⟩,
  ⟨chars "FlightCommunications", chars "simulation.FlightCommunications", 0x200bc, [.OOC]⟩,
  ⟨chars "FlareRelease", chars "simulation.FlareRelease", 0x200bd, [.OSC]⟩,
  ⟨chars "LandingGear", chars "simulation.LandingGear", 0x200be, [.OOC]⟩,
  ⟨chars "ToeBrake", chars "simulation.ToeBrake", 0x200bf, [.DV]⟩,
  ⟨chars "Trigger", chars "simulation.Trigger", 0x200c0, [.MC]⟩,
  ⟨chars "WeaponsArm", chars "simulation.WeaponsArm", 0x200c1, [.OOC]⟩,
  ⟨chars "WeaponsSelect", chars "simulation.WeaponsSelect", 0x200c2, [.OSC]⟩,
  ⟨chars "WingFlaps", chars "simulation.WingFlaps", 0x200c3, [.DV]⟩,
  ⟨chars "Accelerator", chars "simulation.Accelerator", 0x200c4, [.DV]⟩,
  ⟨chars "Brake", chars "simulation.Brake", 0x200c5, [.DV]⟩,
  ⟨chars "Clutch", chars "simulation.Clutch", 0x200c6, [.DV]⟩,
  ⟨chars "Shifter", chars "simulation.Shifter", 0x200c7, [.DV]⟩,
  ⟨chars "Steering", chars "simulation.Steering", 0x200c8, [.DV]⟩,
  ⟨chars "TurretDirection", chars "simulation.TurretDirection", 0x200c9, [.DV]⟩,
  ⟨chars "BarrelElevation", chars "simulation.BarrelElevation", 0x200ca, [.DV]⟩,
  ⟨chars "DivePlane", chars "simulation.DivePlane", 0x200cb, [.DV]⟩,
  ⟨chars "Ballast", chars "simulation.Ballast", 0x200cc, [.DV]⟩,
  ⟨chars "BicycleCrank", chars "simulation.BicycleCrank", 0x200cd, [.DV]⟩,
  ⟨chars "HandleBars", chars "simulation.HandleBars", 0x200ce, [.DV]⟩,
  ⟨chars "FrontBrake", chars "simulation.FrontBrake", 0x200cf, [.DV]⟩,
  ⟨chars "RearBrake", chars "simulation.RearBrake", 0x200d0, [.DV]⟩]

/-- `hrdc/usage/led.py:3-88`. -/
def led : List Row := [
  ⟨chars "NumLock", chars "led.NumLock", 0x80001, [.OOC]⟩,
  ⟨chars "CapsLock", chars "led.CapsLock", 0x80002, [.OOC]⟩,
  ⟨chars "ScrollLock", chars "led.ScrollLock", 0x80003, [.OOC]⟩,
  ⟨chars "Compose", chars "led.Compose", 0x80004, [.OOC]⟩,
  ⟨chars "Kana", chars "led.Kana", 0x80005, [.OOC]⟩,
  ⟨chars "Power", chars "led.Power", 0x80006, [.OOC]⟩,
  ⟨chars "Shift", chars "led.Shift", 0x80007, [.OOC]⟩,
  ⟨chars "DoNotDisturb", chars "led.DoNotDisturb", 0x80008, [.OOC]⟩,
  ⟨chars "Mute", chars "led.Mute", 0x80009, [.OOC]⟩,
  ⟨chars "ToneEnable", chars "led.ToneEnable", 0x8000a, [.OOC]⟩,
  ⟨chars "HighCutFilter", chars "led.HighCutFilter", 0x8000b, [.OOC]⟩,
  ⟨chars "LowCutFilter", chars "led.LowCutFilter", 0x8000c, [.OOC]⟩,
  ⟨chars "EqualizerEnable", chars "led.EqualizerEnable", 0x8000d, [.OOC]⟩,
  ⟨chars "SoundFieldOn", chars "led.SoundFieldOn", 0x8000e, [.OOC]⟩,
  ⟨chars "SurroundOn", chars "led.SurroundOn", 0x8000f, [.OOC]⟩,
  ⟨chars "Repeat", chars "led.Repeat", 0x80010, [.OOC]⟩,
  ⟨chars "Stereo", chars "led.Stereo", 0x80011, [.OOC]⟩,
  ⟨chars "SamplingRateDetect", chars "led.SamplingRateDetect", 0x80012, [.OOC]⟩,
  ⟨chars "Spinning", chars "led.Spinning", 0x80013, [.OOC]⟩,
  ⟨chars "CAV", chars "led.CAV", 0x80014, [.OOC]⟩,
  ⟨chars "CLV", chars "led.CLV", 0x80015, [.OOC]⟩,
  ⟨chars "RecordingFormatDetect", chars "led.RecordingFormatDetect", 0x80016, [.OOC]⟩,
  ⟨chars "OffHook", chars "led.OffHook", 0x80017, [.OOC]⟩,
  ⟨chars "Ring", chars "led.Ring", 0x80018, [.OOC]⟩,
  ⟨chars "MessageWaiting", chars "led.MessageWaiting", 0x80019, [.OOC]⟩,
  ⟨chars "DataMode", chars "led.DataMode", 0x8001a, [.OOC]⟩,
  ⟨chars "BatteryOperation", chars "led.BatteryOperation", 0x8001b, [.OOC]⟩,
  ⟨chars "BatteryOK", chars "led.BatteryOK", 0x8001c, [.OOC]⟩,
  ⟨chars "BatteryLow", chars "led.BatteryLow", 0x8001d, [.OOC]⟩,
  ⟨chars "Speaker", chars "led.Speaker", 0x8001e, [.OOC]⟩,
  ⟨chars "HeadSet", chars "led.HeadSet", 0x8001f, [.OOC]⟩,
  ⟨chars "Hold", chars "led.Hold", 0x80020, [.OOC]⟩,
  ⟨chars "Microphone", chars "led.Microphone", 0x80021, [.OOC]⟩,
  ⟨chars "Coverage", chars "led.Coverage", 0x80022, [.OOC]⟩,
  ⟨chars "NightMode", chars "led.NightMode", 0x80023, [.OOC]⟩,
  ⟨chars "SendCalls", chars "led.SendCalls", 0x80024, [.OOC]⟩,
  ⟨chars "CallPickup", chars "led.CallPickup", 0x80025, [.OOC]⟩,
  ⟨chars "Conference", chars "led.Conference", 0x80026, [.OOC]⟩,
  ⟨chars "StandBy", chars "led.StandBy", 0x80027, [.OOC]⟩,
  ⟨chars "CameraOn", chars "led.CameraOn", 0x80028, [.OOC]⟩,
  ⟨chars "CameraOff", chars "led.CameraOff", 0x80029, [.OOC]⟩,
  ⟨chars "OnLine", chars "led.OnLine", 0x8002a, [.OOC]⟩,
  ⟨chars "OffLine", chars "led.OffLine", 0x8002b, [.OOC]⟩,
  ⟨chars "Busy", chars "led.Busy", 0x8002c, [.OOC]⟩,
  ⟨chars "Ready", chars "led.Ready", 0x8002d, [.OOC]⟩,
  ⟨chars "PaperOut", chars "led.PaperOut", 0x8002e, [.OOC]⟩,
  ⟨chars "PaperJam", chars "led.PaperJam", 0x8002f, [.OOC]⟩,
  ⟨chars "Remote", chars "led.Remote", 0x80030, [.OOC]⟩,
  ⟨chars "Forward", chars "led.Forward", 0x80031, [.OOC]⟩,
  ⟨chars "Reverse", chars "led.Reverse", 0x80032, [.OOC]⟩,
  ⟨chars "Stop", chars "led.Stop", 0x80033, [.OOC]⟩,
  ⟨chars "Rewind", chars "led.Rewind", 0x80034, [.OOC]⟩,
  ⟨chars "FastForward", chars "led.FastForward", 0x80035, [.OOC]⟩,
  ⟨chars "Play", chars "led.Play", 0x80036, [.OOC]⟩,
  ⟨chars "Pause", chars "led.Pause", 0x80037, [.OOC]⟩,
  ⟨chars "Record", chars "led.Record", 0x80038, [.OOC]⟩,
  ⟨chars "Error", chars "led.Error", 0x80039, [.OOC]⟩,
  ⟨chars "UsageSelectedIndicator", chars "led.UsageSelectedIndicator", 0x8003a, [.US]⟩,
  ⟨chars "UsageInUseIndicator", chars "led.UsageInUseIndicator", 0x8003b, [.US]⟩,
  ⟨chars "UsageMultiModeIndicator", chars "led.UsageMultiModeIndicator", 0x8003c, [.UM]⟩,
  ⟨chars "IndicatorOn", chars "led.IndicatorOn", 0x8003d, [.Sel]⟩,
  ⟨chars "IndicatorFlash", chars "led.IndicatorFlash", 0x8003e, [.Sel]⟩,
  ⟨chars "IndicatorSlowBlink", chars "led.IndicatorSlowBlink", 0x8003f, [.Sel]⟩,
  ⟨chars "IndicatorFastBlink", chars "led.IndicatorFastBlink", 0x80040, [.Sel]⟩,
  ⟨chars "IndicatorOff", chars "led.IndicatorOff", 0x80041, [.Sel]⟩,
  ⟨chars "FlashOnTime", chars "led.FlashOnTime", 0x80042, [.DV]⟩,
  ⟨chars "SlowBlinkOnTime", chars "led.SlowBlinkOnTime", 0x80043, [.DV]⟩,
  ⟨chars "SlowBlinkOffTime", chars "led.SlowBlinkOffTime", 0x80044, [.DV]⟩,
  ⟨chars "FastBlinkOnTime", chars "led.FastBlinkOnTime", 0x80045, [.DV]⟩,
  ⟨chars "FastBlinkOffTime", chars "led.FastBlinkOffTime", 0x80046, [.DV]⟩,
  ⟨chars "UsageIndicatorColor", chars "led.UsageIndicatorColor", 0x80047, [.UM]⟩,
  ⟨chars "IndicatorRed", chars "led.IndicatorRed", 0x80048, [.Sel]⟩,
  ⟨chars "IndicatorAmber", chars "led.IndicatorAmber", 0x8004a, [.Sel]⟩,
  ⟨chars "SystemSuspend", chars "led.SystemSuspend", 0x8004c, [.OOC]⟩,
  ⟨chars "ExternalPowerConnected", chars "led.ExternalPowerConnected", 0x8004d, [.OOC]⟩,
  ⟨chars "PlayerIndicator", chars "led.PlayerIndicator", 0x8004e, [.NAry]⟩,
  ⟨chars "Player1", chars "led.Player1", 0x8004f, [.Sel]⟩,
  ⟨chars "Player2", chars "led.Player2", 0x80050, [.Sel]⟩,
  ⟨chars "Player3", chars "led.Player3", 0x80051, [.Sel]⟩,
  ⟨chars "Player4", chars "led.Player4", 0x80052, [.Sel]⟩,
  ⟨chars "Player5", chars "led.Player5", 0x80053, [.Sel]⟩,
  ⟨chars "Player6", chars "led.Player6", 0x80054, [.Sel]⟩,
  ⟨chars "Player7", chars "led.Player7", 0x80055, [.Sel]⟩,
  ⟨chars "Player8", chars "led.Player8", 0x80056, [.Sel]⟩]

/-- `hrdc/usage/vr.py:3-14`. -/
def vr : List Row := [
  ⟨chars "Belt", chars "vr.Belt", 0x30001, [.CA]⟩,
  ⟨chars "BodySuit", chars "vr.BodySuit", 0x30002, [.CA]⟩,
  ⟨chars "Flexor", chars "vr.Flexor", 0x30003, [.CP]⟩,
  ⟨chars "Glove", chars "vr.Glove", 0x30004, [.CA]⟩,
  ⟨chars "HeadTracker", chars "vr.HeadTracker", 0x30005, [.CP]⟩,
  ⟨chars "HeadMountedDisplay", chars "vr.HeadMountedDisplay", 0x30006, [.CA]⟩,
  ⟨chars "HandTracker", chars "vr.HandTracker", 0x30007, [.CA]⟩,
  ⟨chars "Oculometer", chars "vr.Oculometer", 0x30008, [.CA]⟩,
  ⟨chars "Vest", chars "vr.Vest", 0x30009, [.CA]⟩,
  ⟨chars "AnimatronicDevice", chars "vr.AnimatronicDevice", 0x3000a, [.CA]⟩,
  ⟨chars "StereoEnable", chars "vr.StereoEnable", 0x30020, [.OOC]⟩,
  ⟨chars "DisplayEnable", chars "vr.DisplayEnable", 0x30021, [.OOC]⟩]

/-- `hrdc/usage/game.py:3-30`. -/
def game : List Row := [
  ⟨chars "ThreeDGameController", chars "game.ThreeDGameController", 0x50001, [.CA]⟩,
  ⟨chars "PinballDevice", chars "game.PinballDevice", 0x50002, [.CA]⟩,
  ⟨chars "GunDevice", chars "game.GunDevice", 0x50003, [.CA]⟩,
  ⟨chars "PointofView", chars "game.PointofView", 0x50020, [.CP]⟩,
  ⟨chars "TurnRightLeft", chars "game.TurnRightLeft", 0x50021, [.DV]⟩,
  ⟨chars "PitchForwardBackward", chars "game.PitchForwardBackward", 0x50022, [.DV]⟩,
  ⟨chars "RollRightLeft", chars "game.RollRightLeft", 0x50023, [.DV]⟩,
  ⟨chars "MoveRightLeft", chars "game.MoveRightLeft", 0x50024, [.DV]⟩,
  ⟨chars "MoveForwardBackward", chars "game.MoveForwardBackward", 0x50025, [.DV]⟩,
  ⟨chars "MoveUpDown", chars "game.MoveUpDown", 0x50026, [.DV]⟩,
  ⟨chars "LeanRightLeft", chars "game.LeanRightLeft", 0x50027, [.DV]⟩,
  ⟨chars "LeanForwardBackward", chars "game.LeanForwardBackward", 0x50028, [.DV]⟩,
  ⟨chars "HeightofPOV", chars "game.HeightofPOV", 0x50029, [.DV]⟩,
  ⟨chars "Flipper", chars "game.Flipper", 0x5002a, [.MC]⟩,
  ⟨chars "SecondaryFlipper", chars "game.SecondaryFlipper", 0x5002b, [.MC]⟩,
  ⟨chars "Bump", chars "game.Bump", 0x5002c, [.MC]⟩,
  ⟨chars "NewGame", chars "game.NewGame", 0x5002d, [.OSC]⟩,
  ⟨chars "ShootBall", chars "game.ShootBall", 0x5002e, [.OSC]⟩,
  ⟨chars "Player", chars "game.Player", 0x5002f, [.OSC]⟩,
  ⟨chars "GunBolt", chars "game.GunBolt", 0x50030, [.OOC]⟩,
  ⟨chars "GunClip", chars "game.GunClip", 0x50031, [.OOC]⟩,
  ⟨chars "GunSelector", chars "game.GunSelector", 0x50032, [.NAry]⟩,
  ⟨chars "GunSingleShot", chars "game.GunSingleShot", 0x50033, [.Sel]⟩,
  ⟨chars "GunBurst", chars "game.GunBurst", 0x50034, [.Sel]⟩,
  ⟨chars "GunAutomatic", chars "game.GunAutomatic", 0x50035, [.Sel]⟩,
  ⟨chars "GunSafety", chars "game.GunSafety", 0x50036, [.OOC]⟩,
  ⟨chars "GamepadFireJump", chars "game.GamepadFireJump", 0x50037, [.CL]⟩,
  ⟨chars "GamepadTrigger", chars "game.GamepadTrigger", 0x50039, [.CL]⟩]

/-- `hrdc/usage/camera.py:3-4`. -/
def camera : List Row := [
  ⟨chars "Autofocus", chars "camera.Autofocus", 0x900020, [.OSC]⟩,
  ⟨chars "Shutter", chars "camera.Shutter", 0x900021, [.OSC]⟩]

/-- `hrdc/usage/device.py:3-9`. -/
def device : List Row := [
  ⟨chars "BatteryStrength", chars "device.BatteryStrength", 0x60020, [.DV]⟩,
  ⟨chars "WirelessChannel", chars "device.WirelessChannel", 0x60021, [.DV]⟩,
  ⟨chars "WirelessID", chars "device.WirelessID", 0x60022, [.DV]⟩,
  ⟨chars "DiscoverWirelessControl", chars "device.DiscoverWirelessControl", 0x60023, [.OSC]⟩,
  ⟨chars "SecurityCodeCharacterEntered", chars "device.SecurityCodeCharacterEntered", 0x60024, [.OSC]⟩,
  ⟨chars "SecurityCodeCharacterErased", chars "device.SecurityCodeCharacterErased", 0x60025, [.OSC]⟩,
  ⟨chars "SecurityCodeCleared", chars "device.SecurityCodeCleared", 0x60026, [.OSC]⟩]

/-- `hrdc/usage/digitizers.py:3-62`. -/
def digitizers : List Row := [
  ⟨chars "Digitizer", chars "digitizers.Digitizer", 0xd0001, [.CA]⟩,
  ⟨chars "Pen", chars "digitizers.Pen", 0xd0002, [.CA]⟩,
  ⟨chars "LightPen", chars "digitizers.LightPen", 0xd0003, [.CA]⟩,
  ⟨chars "TouchScreen", chars "digitizers.TouchScreen", 0xd0004, [.CA]⟩,
  ⟨chars "TouchPad", chars "digitizers.TouchPad", 0xd0005, [.CA]⟩,
  ⟨chars "WhiteBoard", chars "digitizers.WhiteBoard", 0xd0006, [.CA]⟩,
  ⟨chars "CoordinateMeasuringMachine", chars "digitizers.CoordinateMeasuringMachine", 0xd0007, [.CA]⟩,
  ⟨chars "ThreeDDigitizer", chars "digitizers.ThreeDDigitizer", 0xd0008, [.CA]⟩,
  ⟨chars "StereoPlotter", chars "digitizers.StereoPlotter", 0xd0009, [.CA]⟩,
  ⟨chars "ArticulatedArm", chars "digitizers.ArticulatedArm", 0xd000a, [.CA]⟩,
  ⟨chars "Armature", chars "digitizers.Armature", 0xd000b, [.CA]⟩,
  ⟨chars "MultiplePointDigitizer", chars "digitizers.MultiplePointDigitizer", 0xd000c, [.CA]⟩,
  ⟨chars "FreeSpaceWand", chars "digitizers.FreeSpaceWand", 0xd000d, [.CA]⟩,
  ⟨chars "Stylus", chars "digitizers.Stylus", 0xd0020, [.CL]⟩,
  ⟨chars "Puck", chars "digitizers.Puck", 0xd0021, [.CL]⟩,
  ⟨chars "Finger", chars "digitizers.Finger", 0xd0022, [.CL]⟩,
  ⟨chars "TipPressure", chars "digitizers.TipPressure", 0xd0030, [.DV]⟩,
  ⟨chars "BarrelPressure", chars "digitizers.BarrelPressure", 0xd0031, [.DV]⟩,
  ⟨chars "InRange", chars "digitizers.InRange", 0xd0032, [.MC]⟩,
  ⟨chars "Touch", chars "digitizers.Touch", 0xd0033, [.MC]⟩,
  ⟨chars "Untouch", chars "digitizers.Untouch", 0xd0034, [.OSC]⟩,
  ⟨chars "Tap", chars "digitizers.Tap", 0xd0035, [.OSC]⟩,
  ⟨chars "Quality", chars "digitizers.Quality", 0xd0036, [.DV]⟩,
  ⟨chars "DataValid", chars "digitizers.DataValid", 0xd0037, [.MC]⟩,
  ⟨chars "TransducerIndex", chars "digitizers.TransducerIndex", 0xd0038, [.DV]⟩,
  ⟨chars "TabletFunctionKeys", chars "digitizers.TabletFunctionKeys", 0xd0039, [.CL]⟩,
  ⟨chars "ProgramChangeKeys", chars "digitizers.ProgramChangeKeys", 0xd003a, [.CL]⟩,
  ⟨chars "BatteryStrength", chars "digitizers.BatteryStrength", 0xd003b, [.DV]⟩,
  ⟨chars "Invert", chars "digitizers.Invert", 0xd003c, [.MC]⟩,
  ⟨chars "XTilt", chars "digitizers.XTilt", 0xd003d, [.DV]⟩,
  ⟨chars "YTilt", chars "digitizers.YTilt", 0xd003e, [.DV]⟩,
  ⟨chars "Azimuth", chars "digitizers.Azimuth", 0xd003f, [.DV]⟩,
  ⟨chars "Altitude", chars "digitizers.Altitude", 0xd0040, [.DV]⟩,
  ⟨chars "Twist", chars "digitizers.Twist", 0xd0041, [.DV]⟩,
  ⟨chars "TipSwitch", chars "digitizers.TipSwitch", 0xd0042, [.MC]⟩,
  ⟨chars "SecondaryTipSwitch", chars "digitizers.SecondaryTipSwitch", 0xd0043, [.MC]⟩,
  ⟨chars "BarrelSwitch", chars "digitizers.BarrelSwitch", 0xd0044, [.MC]⟩,
  ⟨chars "Eraser", chars "digitizers.Eraser", 0xd0045, [.MC]⟩,
  ⟨chars "TabletPick", chars "digitizers.TabletPick", 0xd0046, [.MC]⟩,
  ⟨chars "TouchValid", chars "digitizers.TouchValid", 0xd0047, [.MC]⟩,
  ⟨chars "Width", chars "digitizers.Width", 0xd0048, [.DV]⟩,
  ⟨chars "Height", chars "digitizers.Height", 0xd0049, [.DV]⟩,
  ⟨chars "Contactidentifier", chars "digitizers.Contactidentifier", 0xd0051, [.DV]⟩,
  ⟨chars "Deviceconfiguration", chars "digitizers.Deviceconfiguration", 0xd000e, [.CA]⟩,
  ⟨chars "Devicemode", chars "digitizers.Devicemode", 0xd0052, [.DV]⟩,
  ⟨chars "Deviceidentifier", chars "digitizers.Deviceidentifier", 0xd0053, [.DV]⟩,
  ⟨chars "Contactcount", chars "digitizers.Contactcount", 0xd0054, [.DV]⟩,
  ⟨chars "Contactcountmaximum", chars "digitizers.Contactcountmaximum", 0xd0055, [.DV]⟩,
  ⟨chars "Devicesettings", chars "digitizers.Devicesettings", 0xd0023, [.CL]⟩,
  ⟨chars "SecondaryBarrelSwitch", chars "digitizers.SecondaryBarrelSwitch", 0xd005a, [.MC]⟩,
  ⟨chars "TransducerSerialNumber", chars "digitizers.TransducerSerialNumber", 0xd005b, [.SV]⟩,
  ⟨chars "PreferredColor", chars "digitizers.PreferredColor", 0xd005c, [.DV]⟩]

/-- `hrdc/usage/lighting.py:5-37`. -/
def lighting : List Row := [
  ⟨chars "LampArray", chars "lighting.LampArray", 0x590001, [.CA]⟩,
  ⟨chars "LampArrayAttributesReport", chars "lighting.LampArrayAttributesReport", 0x590002, [.CL]⟩,
  ⟨chars "LampCount", chars "lighting.LampCount", 0x590003, [.SV]⟩,
  ⟨chars "BoundingBoxWidthInMicrometers", chars "lighting.BoundingBoxWidthInMicrometers", 0x590004, [.SV]⟩,
  ⟨chars "BoundingBoxHeightInMicrometers", chars "lighting.BoundingBoxHeightInMicrometers", 0x590005, [.SV]⟩,
  ⟨chars "BoundingBoxDepthInMicrometers", chars "lighting.BoundingBoxDepthInMicrometers", 0x590006, [.SV]⟩,
  ⟨chars "LampArrayKind", chars "lighting.LampArrayKind", 0x590007, [.SV]⟩,
  ⟨chars "MinUpdateIntervalInMicroseconds", chars "lighting. MinUpdateIntervalInMicroseconds", 0x590008, [.SV]⟩,
  ⟨chars "LampAttributesRequestReport", chars "lighting.LampAttributesRequestReport", 0x590020, [.CL]⟩,
  ⟨chars "LampId", chars "lighting.LampId", 0x590021, [.SV]⟩,
  ⟨chars "LampAttributesResponseReport", chars "lighting.LampAttributesResponseReport", 0x590022, [.CL]⟩,
  ⟨chars "PositionXInMicrometers", chars "lighting.PositionXInMicrometers", 0x590023, [.DV]⟩,
  ⟨chars "PositionYInMicrometers", chars "lighting.PositionYInMicrometers", 0x590024, [.DV]⟩,
  ⟨chars "PositionZInMicrometers", chars "lighting.PositionZInMicrometers", 0x590025, [.DV]⟩,
  ⟨chars "LampPurposes", chars "lighting.LampPurposes", 0x590026, [.DV]⟩,
  ⟨chars "UpdateLatencyInMicroseconds", chars "lighting.UpdateLatencyInMicroseconds", 0x590027, [.DV]⟩,
  ⟨chars "RedLevelCount", chars "lighting.RedLevelCount", 0x590028, [.DV]⟩,
  ⟨chars "GreenLevelCount", chars "lighting.GreenLevelCount", 0x590029, [.DV]⟩,
  ⟨chars "BlueLevelCount", chars "lighting.BlueLevelCount", 0x59002a, [.DV]⟩,
  ⟨chars "IntensityLevelCount", chars "lighting.IntensityLevelCount", 0x59002b, [.DV]⟩,
  ⟨chars "IsProgrammable", chars "lighting.IsProgrammable", 0x59002c, [.DV]⟩,
  ⟨chars "InputBinding", chars "lighting.InputBinding", 0x59002d, [.DV]⟩,
  ⟨chars "LampMultiUpdateReport", chars "lighting.LampMultiUpdateReport", 0x590050, [.CL]⟩,
  ⟨chars "RedUpdateChannel", chars "lighting.RedUpdateChannel", 0x590051, [.DV]⟩,
  ⟨chars "GreenUpdateChannel", chars "lighting.GreenUpdateChannel", 0x590052, [.DV]⟩,
  ⟨chars "BlueUpdateChannel", chars "lighting.BlueUpdateChannel", 0x590053, [.DV]⟩,
  ⟨chars "IntensityUpdateChannel", chars "lighting.IntensityUpdateChannel", 0x590054, [.DV]⟩,
  ⟨chars "LampUpdateFlags", chars "lighting.LampUpdateFlags", 0x590055, [.DV]⟩,
  ⟨chars "LampRangeUpdateReport", chars "lighting.LampRangeUpdateReport", 0x590060, [.CL]⟩,
  ⟨chars "LampIdStart", chars "lighting.LampIdStart", 0x590061, [.DV]⟩,
  ⟨chars "LampIdEnd", chars "lighting.LampIdEnd", 0x590062, [.DV]⟩,
  ⟨chars "LampArrayControlReport", chars "lighting.LampArrayControlReport", 0x590070, [.CL]⟩,
  ⟨chars "AutonomousMode", chars "lighting.AutonomousMode", 0x590071, [.DV]⟩]

/-- `hrdc/usage/sensors.py:3-185`. -/
def sensors : List Row := [
  ⟨chars "Sensor", chars "sensors.Sensor", 0x200001, [.CA, .CP]⟩,
  ⟨chars "Biometric", chars "sensors.Biometric", 0x200010, [.CA, .CP]⟩,
  ⟨chars "BiometricHumanPresence", chars "sensors.BiometricHumanPresence", 0x200011, [.CA, .CP]⟩,
  ⟨chars "BiometricHumanProximity", chars "sensors.BiometricHumanProximity", 0x200012, [.CA, .CP]⟩,
  ⟨chars "BiometricHumanTouch", chars "sensors.BiometricHumanTouch", 0x200013, [.CA, .CP]⟩,
  ⟨chars "Electrical", chars "sensors.Electrical", 0x200020, [.CA, .CP]⟩,
  ⟨chars "ElectricalCapacitance", chars "sensors.ElectricalCapacitance", 0x200021, [.CA, .CP]⟩,
  ⟨chars "ElectricalCurrent", chars "sensors.ElectricalCurrent", 0x200022, [.CA, .CP]⟩,
  ⟨chars "ElectricalPower", chars "sensors.ElectricalPower", 0x200023, [.CA, .CP]⟩,
  ⟨chars "ElectricalInductance", chars "sensors.ElectricalInductance", 0x200024, [.CA, .CP]⟩,
  ⟨chars "ElectricalResistance", chars "sensors.ElectricalResistance", 0x200025, [.CA, .CP]⟩,
  ⟨chars "ElectricalVoltage", chars "sensors.ElectricalVoltage", 0x200026, [.CA, .CP]⟩,
  ⟨chars "ElectricalPotentiometer", chars "sensors.ElectricalPotentiometer", 0x200027, [.CA, .CP]⟩,
  ⟨chars "ElectricalFrequency", chars "sensors.ElectricalFrequency", 0x200028, [.CA, .CP]⟩,
  ⟨chars "ElectricalPeriod", chars "sensors.ElectricalPeriod", 0x200029, [.CA, .CP]⟩,
  ⟨chars "Environmental", chars "sensors.Environmental", 0x200030, [.CA, .CP]⟩,
  ⟨chars "EnvironmentalAtmosphericPressure", chars "sensors.EnvironmentalAtmosphericPressure", 0x200031, [.CA, .CP]⟩,
  ⟨chars "EnvironmentalHumidity", chars "sensors.EnvironmentalHumidity", 0x200032, [.CA, .CP]⟩,
  ⟨chars "EnvironmentalTemperature", chars "sensors.EnvironmentalTemperature", 0x200033, [.CA, .CP]⟩,
  ⟨chars "EnvironmentalWindDirection", chars "sensors.EnvironmentalWindDirection", 0x200034, [.CA, .CP]⟩,
  ⟨chars "EnvironmentalWindSpeed", chars "sensors.EnvironmentalWindSpeed", 0x200035, [.CA, .CP]⟩,
  ⟨chars "Light", chars "sensors.Light", 0x200040, [.CA, .CP]⟩,
  ⟨chars "LightAmbientLight", chars "sensors.LightAmbientLight", 0x200041, [.CA, .CP]⟩,
  ⟨chars "LightConsumerInfrared", chars "sensors.LightConsumerInfrared", 0x200042, [.CA, .CP]⟩,
  ⟨chars "Location", chars "sensors.Location", 0x200050, [.CA, .CP]⟩,
  ⟨chars "LocationBroadcast", chars "sensors.LocationBroadcast", 0x200051, [.CA, .CP]⟩,
  ⟨chars "LocationDeadReckoning", chars "sensors.LocationDeadReckoning", 0x200052, [.CA, .CP]⟩,
  ⟨chars "LocationGPS", chars "sensors.LocationGPS", 0x200053, [.CA, .CP]⟩,
  ⟨chars "LocationLookup", chars "sensors.LocationLookup", 0x200054, [.CA, .CP]⟩,
  ⟨chars "LocationOther", chars "sensors.LocationOther", 0x200055, [.CA, .CP]⟩,
  ⟨chars "LocationStatic", chars "sensors.LocationStatic", 0x200056, [.CA, .CP]⟩,
  ⟨chars "LocationTriangulation", chars "sensors.LocationTriangulation", 0x200057, [.CA, .CP]⟩,
  ⟨chars "Mechanical", chars "sensors.Mechanical", 0x200060, [.CA, .CP]⟩,
  ⟨chars "MechanicalBooleanSwitch", chars "sensors.MechanicalBooleanSwitch", 0x200061, [.CA, .CP]⟩,
  ⟨chars "MechanicalBooleanSwitchArray", chars "sensors.MechanicalBooleanSwitchArray", 0x200062, [.CA, .CP]⟩,
  ⟨chars "MechanicalMultivalueSwitch", chars "sensors.MechanicalMultivalueSwitch", 0x200063, [.CA, .CP]⟩,
  ⟨chars "MechanicalForce", chars "sensors.MechanicalForce", 0x200064, [.CA, .CP]⟩,
  ⟨chars "MechanicalPressure", chars "sensors.MechanicalPressure", 0x200065, [.CA, .CP]⟩,
  ⟨chars "MechanicalStrain", chars "sensors.MechanicalStrain", 0x200066, [.CA, .CP]⟩,
  ⟨chars "MechanicalWeight", chars "sensors.MechanicalWeight", 0x200067, [.CA, .CP]⟩,
  ⟨chars "MechanicalHapticVibrator", chars "sensors.MechanicalHapticVibrator", 0x200068, [.CA, .CP]⟩,
  ⟨chars "MechanicalHallEffectSwitch", chars "sensors.MechanicalHallEffectSwitch", 0x200069, [.CA, .CP]⟩,
  ⟨chars "Motion", chars "sensors.Motion", 0x200070, [.CA, .CP]⟩,
  ⟨chars "MotionAccelerometer1D", chars "sensors.MotionAccelerometer1D", 0x200071, [.CA, .CP]⟩,
  ⟨chars "MotionAccelerometer2D", chars "sensors.MotionAccelerometer2D", 0x200072, [.CA, .CP]⟩,
  ⟨chars "MotionAccelerometer3D", chars "sensors.MotionAccelerometer3D", 0x200073, [.CA, .CP]⟩,
  ⟨chars "MotionGyrometer1D", chars "sensors.MotionGyrometer1D", 0x200074, [.CA, .CP]⟩,
  ⟨chars "MotionGyrometer2D", chars "sensors.MotionGyrometer2D", 0x200075, [.CA, .CP]⟩,
  ⟨chars "MotionGyrometer3D", chars "sensors.MotionGyrometer3D", 0x200076, [.CA, .CP]⟩,
  ⟨chars "MotionMotionDetector", chars "sensors.MotionMotionDetector", 0x200077, [.CA, .CP]⟩,
  ⟨chars "MotionSpeedometer", chars "sensors.MotionSpeedometer", 0x200078, [.CA, .CP]⟩,
  ⟨chars "MotionAccelerometer", chars "sensors.MotionAccelerometer", 0x200079, [.CA, .CP]⟩,
  ⟨chars "MotionGyrometer", chars "sensors.MotionGyrometer", 0x20007a, [.CA, .CP]⟩,
  ⟨chars "Orientation", chars "sensors.Orientation", 0x200080, [.CA, .CP]⟩,
  ⟨chars "OrientationCompass1D", chars "sensors.OrientationCompass1D", 0x200081, [.CA, .CP]⟩,
  ⟨chars "OrientationCompass2D", chars "sensors.OrientationCompass2D", 0x200082, [.CA, .CP]⟩,
  ⟨chars "OrientationCompass3D", chars "sensors.OrientationCompass3D", 0x200083, [.CA, .CP]⟩,
  ⟨chars "OrientationInclinometer1D", chars "sensors.OrientationInclinometer1D", 0x200084, [.CA, .CP]⟩,
  ⟨chars "OrientationInclinometer2D", chars "sensors.OrientationInclinometer2D", 0x200085, [.CA, .CP]⟩,
  ⟨chars "OrientationInclinometer3D", chars "sensors.OrientationInclinometer3D", 0x200086, [.CA, .CP]⟩,
  ⟨chars "OrientationDistance1D", chars "sensors.OrientationDistance1D", 0x200087, [.CA, .CP]⟩,
  ⟨chars "OrientationDistance2D", chars "sensors.OrientationDistance2D", 0x200088, [.CA, .CP]⟩,
  ⟨chars "OrientationDistance3D", chars "sensors.OrientationDistance3D", 0x200089, [.CA, .CP]⟩,
  ⟨chars "OrientationDeviceOrientation", chars "sensors.OrientationDeviceOrientation", 0x20008a, [.CA, .CP]⟩,
  ⟨chars "OrientationCompass", chars "sensors.OrientationCompass", 0x20008b, [.CA, .CP]⟩,
  ⟨chars "OrientationInclinometer", chars "sensors.OrientationInclinometer", 0x20008c, [.CA, .CP]⟩,
  ⟨chars "OrientationDistance", chars "sensors.OrientationDistance", 0x20008d, [.CA, .CP]⟩,
  ⟨chars "Scanner", chars "sensors.Scanner", 0x200090, [.CA, .CP]⟩,
  ⟨chars "ScannerBarcode", chars "sensors.ScannerBarcode", 0x200091, [.CA, .CP]⟩,
  ⟨chars "ScannerRFID", chars "sensors.ScannerRFID", 0x200092, [.CA, .CP]⟩,
  ⟨chars "ScannerNFC", chars "sensors.ScannerNFC", 0x200093, [.CA, .CP]⟩,
  ⟨chars "Time", chars "sensors.Time", 0x2000a0, [.CA, .CP]⟩,
  ⟨chars "TimeAlarmTimer", chars "sensors.TimeAlarmTimer", 0x2000a1, [.CA, .CP]⟩,
  ⟨chars "TimeRealTimeClock", chars "sensors.TimeRealTimeClock", 0x2000a2, [.CA, .CP]⟩,
  ⟨chars "Other", chars "sensors.Other", 0x2000e0, [.CA, .CP]⟩,
  ⟨chars "OtherCustom", chars "sensors.OtherCustom", 0x2000e1, [.CA, .CP]⟩,
  ⟨chars "OtherGeneric", chars "sensors.OtherGeneric", 0x2000e2, [.CA, .CP]⟩,
  ⟨chars "OtherGenericEnumerator", chars "sensors.OtherGenericEnumerator", 0x2000e3, [.CA, .CP]⟩,
  ⟨chars "Event", chars "sensors.Event", 0x200200, []⟩,
  ⟨chars "EventSensorState", chars "sensors.EventSensorState", 0x200201, [.NAry]⟩,
  ⟨chars "SensorStateUndefined", chars "sensors.SensorStateUndefined", 0x200800, [.Sel]⟩,
  ⟨chars "SensorStateReady", chars "sensors.SensorStateReady", 0x200801, [.Sel]⟩,
  ⟨chars "SensorStateNotAvailable", chars "sensors.SensorStateNotAvailable", 0x200802, [.Sel]⟩,
  ⟨chars "SensorStateNoData", chars "sensors.SensorStateNoData", 0x200803, [.Sel]⟩,
  ⟨chars "SensorStateInitializing", chars "sensors.SensorStateInitializing", 0x200804, [.Sel]⟩,
  ⟨chars "SensorStateAccessDenied", chars "sensors.SensorStateAccessDenied", 0x200805, [.Sel]⟩,
  ⟨chars "SensorStateError", chars "sensors.SensorStateError", 0x200806, [.Sel]⟩,
  ⟨chars "EventSensorEvent", chars "sensors.EventSensorEvent", 0x200202, [.NAry]⟩,
  ⟨chars "SensorEventUnknown", chars "sensors.SensorEventUnknown", 0x200810, [.NAry]⟩,
  ⟨chars "SensorEventStateChanged", chars "sensors.SensorEventStateChanged", 0x200811, [.NAry]⟩,
  ⟨chars "SensorEventPropertyChanged", chars "sensors.SensorEventPropertyChanged", 0x200812, [.NAry]⟩,
  ⟨chars "SensorEventDataUpdated", chars "sensors.SensorEventDataUpdated", 0x200813, [.NAry]⟩,
  ⟨chars "SensorEventPollResponse", chars "sensors.SensorEventPollResponse", 0x200814, [.NAry]⟩,
  ⟨chars "SensorEventChangeSensitivity", chars "sensors.SensorEventChangeSensitivity", 0x200815, [.NAry]⟩,
  ⟨chars "SensorEventRangeMaximumReached", chars "sensors.SensorEventRangeMaximumReached", 0x200816, [.NAry]⟩,
  ⟨chars "SensorEventRangeMinimumReached", chars "sensors.SensorEventRangeMinimumReached", 0x200817, [.NAry]⟩,
  ⟨chars "SensorEventHighThresholdCrossUpward", chars "sensors.SensorEventHighThresholdCrossUpward", 0x200818, [.NAry]⟩,
  ⟨chars "SensorEventHighThresholdCrossDownward", chars "sensors.SensorEventHighThresholdCrossDownward", 0x200819, [.NAry]⟩,
  ⟨chars "SensorEventLowThresholdCrossUpward", chars "sensors.SensorEventLowThresholdCrossUpward", 0x20081a, [.NAry]⟩,
  ⟨chars "SensorEventLowThresholdCrossDownward", chars "sensors.SensorEventLowThresholdCrossDownward", 0x20081b, [.NAry]⟩,
  ⟨chars "SensorEventZeroThresholdCrossUpward", chars "sensors.SensorEventZeroThresholdCrossUpward", 0x20081c, [.NAry]⟩,
  ⟨chars "SensorEventZeroThresholdCrossDownward", chars "sensors.SensorEventZeroThresholdCrossDownward", 0x20081d, [.NAry]⟩,
  ⟨chars "SensorEventPeriodExceeded", chars "sensors.SensorEventPeriodExceeded", 0x20081e, [.NAry]⟩,
  ⟨chars "SensorEventFrequencyExceeded", chars "sensors.SensorEventFrequencyExceeded", 0x20081f, [.NAry]⟩,
  ⟨chars "SensorEventComplexTrigger", chars "sensors.SensorEventComplexTrigger", 0x200820, [.NAry]⟩,
  ⟨chars "Property", chars "sensors.Property", 0x200300, []⟩,
  ⟨chars "PropertyFriendlyName", chars "sensors.PropertyFriendlyName", 0x200301, [.SV]⟩,
  ⟨chars "PropertyPersistentUniqueID", chars "sensors.PropertyPersistentUniqueID", 0x200302, [.DV]⟩,
  ⟨chars "PropertySensorStatus", chars "sensors.PropertySensorStatus", 0x200303, [.DV]⟩,
  ⟨chars "PropertyMinimumReportInterval", chars "sensors.PropertyMinimumReportInterval", 0x200304, [.SV]⟩,
  ⟨chars "PropertySensorManufacturer", chars "sensors.PropertySensorManufacturer", 0x200305, [.SV]⟩,
  ⟨chars "PropertySensorModel", chars "sensors.PropertySensorModel", 0x200306, [.SV]⟩,
  ⟨chars "PropertySensorSerialNumber", chars "sensors.PropertySensorSerialNumber", 0x200307, [.SV]⟩,
  ⟨chars "PropertySensorDescription", chars "sensors.PropertySensorDescription", 0x200308, [.SV]⟩,
  ⟨chars "PropertySensorConnectionType", chars "sensors.PropertySensorConnectionType", 0x200309, [.NAry]⟩,
  ⟨chars "ConnectionTypePCIntegrated", chars "sensors.ConnectionTypePCIntegrated", 0x200830, [.Sel]⟩,
  ⟨chars "ConnectionTypePCAttached", chars "sensors.ConnectionTypePCAttached", 0x200831, [.Sel]⟩,
  ⟨chars "ConnectionTypePCExternal", chars "sensors.ConnectionTypePCExternal", 0x200832, [.Sel]⟩,
  ⟨chars "PropertySensorDevicePath", chars "sensors.PropertySensorDevicePath", 0x20030a, [.DV]⟩,
  ⟨chars "PropertyHardwareRevision", chars "sensors.PropertyHardwareRevision", 0x20030b, [.SV]⟩,
  ⟨chars "PropertyFirmwareVersion", chars "sensors.PropertyFirmwareVersion", 0x20030c, [.SV]⟩,
  ⟨chars "PropertyReleaseDate", chars "sensors.PropertyReleaseDate", 0x20030d, [.SV]⟩,
  ⟨chars "PropertyReportInterval", chars "sensors.PropertyReportInterval", 0x20030e, [.DV]⟩,
  ⟨chars "PropertyChangeSensitivityAbsolute", chars "sensors.PropertyChangeSensitivityAbsolute", 0x20030f, [.DV]⟩,
  ⟨chars "PropertyChangeSensitivityPercentofRange", chars "sensors.PropertyChangeSensitivityPercentofRange", 0x200310, [.DV]⟩,
  ⟨chars "PropertyChangeSensitivityPercentRelative", chars "sensors.PropertyChangeSensitivityPercentRelative", 0x200311, [.DV]⟩,
  ⟨chars "PropertyAccuracy", chars "sensors.PropertyAccuracy", 0x200312, [.DV]⟩,
  ⟨chars "PropertyResolution", chars "sensors.PropertyResolution", 0x200313, [.DV]⟩,
  ⟨chars "PropertyMaximum", chars "sensors.PropertyMaximum", 0x200314, [.DV]⟩,
  ⟨chars "PropertyMinimum", chars "sensors.PropertyMinimum", 0x200315, [.DV]⟩,
  ⟨chars "PropertyReportingState", chars "sensors.PropertyReportingState", 0x200316, [.NAry]⟩,
  ⟨chars "ReportingStateReportNoEvents", chars "sensors.ReportingStateReportNoEvents", 0x200840, [.Sel]⟩,
  ⟨chars "ReportingStateReportAllEvents", chars "sensors.ReportingStateReportAllEvents", 0x200841, [.Sel]⟩,
  ⟨chars "ReportingStateReportThresholdEvents", chars "sensors.ReportingStateReportThresholdEvents", 0x200842, [.Sel]⟩,
  ⟨chars "ReportingStateWakeOnNoEvents", chars "sensors.ReportingStateWakeOnNoEvents", 0x200843, [.Sel]⟩,
  ⟨chars "ReportingStateWakeOnAllEvents", chars "sensors.ReportingStateWakeOnAllEvents", 0x200844, [.Sel]⟩,
  ⟨chars "ReportingStateWakeOnThresholdEvents", chars "sensors.ReportingStateWakeOnThresholdEvents", 0x200845, [.Sel]⟩,
  ⟨chars "PropertySamplingRate", chars "sensors.PropertySamplingRate", 0x200317, [.DV]⟩,
  ⟨chars "PropertyResponseCurve", chars "sensors.PropertyResponseCurve", 0x200318, [.DV]⟩,
  ⟨chars "PropertyPowerState", chars "sensors.PropertyPowerState", 0x200319, [.NAry]⟩,
  ⟨chars "PowerStateUndefined", chars "sensors.PowerStateUndefined", 0x200850, [.Sel]⟩,
  ⟨chars "PowerStateD0FullPower", chars "sensors.PowerStateD0FullPower", 0x200851, [.Sel]⟩,
  ⟨chars "PowerStateD1LowPower", chars "sensors.PowerStateD1LowPower", 0x200852, [.Sel]⟩,
  ⟨chars "PowerStateD2StandbyPowerwithWakeup", chars "sensors.PowerStateD2StandbyPowerwithWakeup", 0x200853, [.Sel]⟩,
  ⟨chars "PowerStateD3SleepwithWakeup", chars "sensors.PowerStateD3SleepwithWakeup", 0x200854, [.Sel]⟩,
  ⟨chars "PowerStateD4PowerOff", chars "sensors.PowerStateD4PowerOff", 0x200855, [.Sel]⟩,
  ⟨chars "DataFieldLocation", chars "sensors.DataFieldLocation", 0x200400, [.SV]⟩,
  ⟨chars "DataFieldLocationReserved", chars "sensors.DataFieldLocationReserved", 0x200401, []⟩,
  ⟨chars "DataFieldAltitudeAntennaSeaLevel", chars "sensors.DataFieldAltitudeAntennaSeaLevel", 0x200402, [.SV]⟩,
  ⟨chars "DataFieldDifferentialReferenceStationID", chars "sensors.DataFieldDifferentialReferenceStationID", 0x200403, [.SV]⟩,
  ⟨chars "DataFieldAltitudeEllipsoidError", chars "sensors.DataFieldAltitudeEllipsoidError", 0x200404, [.SV]⟩,
  ⟨chars "DataFieldAltitudeEllipsoid", chars "sensors.DataFieldAltitudeEllipsoid", 0x200405, [.SV]⟩,
  ⟨chars "DataFieldAltitudeSeaLevelError", chars "sensors.DataFieldAltitudeSeaLevelError", 0x200406, [.SV]⟩,
  ⟨chars "DataFieldAltitudeSeaLevel", chars "sensors.DataFieldAltitudeSeaLevel", 0x200407, [.SV]⟩,
  ⟨chars "DataFieldDifferentialGPSDataAge", chars "sensors.DataFieldDifferentialGPSDataAge", 0x200408, [.SV]⟩,
  ⟨chars "DataFieldErrorRadius", chars "sensors.DataFieldErrorRadius", 0x200409, [.SV]⟩,
  ⟨chars "DataFieldFixQuality", chars "sensors.DataFieldFixQuality", 0x20040a, [.NAry]⟩,
  ⟨chars "FixQualityNoFix", chars "sensors.FixQualityNoFix", 0x200870, [.Sel]⟩,
  ⟨chars "FixQualityGPS", chars "sensors.FixQualityGPS", 0x200871, [.Sel]⟩,
  ⟨chars "FixQualityDGPS", chars "sensors.FixQualityDGPS", 0x200872, [.Sel]⟩,
  ⟨chars "DataFieldFixType", chars "sensors.DataFieldFixType", 0x20040b, [.NAry]⟩,
  ⟨chars "FixTypeNoFix", chars "sensors.FixTypeNoFix", 0x200880, [.Sel]⟩,
  ⟨chars "FixTypeGPSSPSModeFixValid", chars "sensors.FixTypeGPSSPSModeFixValid", 0x200881, [.Sel]⟩,
  ⟨chars "FixTypeDGPSSPSModeFixValid", chars "sensors.FixTypeDGPSSPSModeFixValid", 0x200882, [.Sel]⟩,
  ⟨chars "FixTypeGPSPPSModeFixValid", chars "sensors.FixTypeGPSPPSModeFixValid", 0x200883, [.Sel]⟩,
  ⟨chars "FixTypeRealTimeKinematic", chars "sensors.FixTypeRealTimeKinematic", 0x200884, [.Sel]⟩,
  ⟨chars "FixTypeFloatRTK", chars "sensors.FixTypeFloatRTK", 0x200885, [.Sel]⟩,
  ⟨chars "FixTypeEstimated", chars "sensors.FixTypeEstimated", 0x200886, [.Sel]⟩,
  ⟨chars "FixTypeManualInputMode", chars "sensors.FixTypeManualInputMode", 0x200887, [.Sel]⟩,
  ⟨chars "FixTypeSimulatorMode", chars "sensors.FixTypeSimulatorMode", 0x200888, [.Sel]⟩,
  ⟨chars "DataFieldGeoidalSeparation", chars "sensors.DataFieldGeoidalSeparation", 0x20040c, [.SV]⟩,
  ⟨chars "DataFieldGPSOperationMode", chars "sensors.DataFieldGPSOperationMode", 0x20040d, [.NAry]⟩,
  ⟨chars "GPSOperationModeManual", chars "sensors.GPSOperationModeManual", 0x200890, [.Sel]⟩,
  ⟨chars "GPSOperationModeAutomatic", chars "sensors.GPSOperationModeAutomatic", 0x200891, [.Sel]⟩,
  ⟨chars "DataFieldGPSSelectionMode", chars "sensors.DataFieldGPSSelectionMode", 0x20040e, [.SV]⟩,
  ⟨chars "GPSSelectionModeAutonomous", chars "sensors.GPSSelectionModeAutonomous", 0x2008a0, [.Sel]⟩,
  ⟨chars "GPSSelectionModeDGPS", chars "sensors.GPSSelectionModeDGPS", 0x2008a1, [.Sel]⟩,
  ⟨chars "GPSSelectionModeEstimated", chars "sensors.GPSSelectionModeEstimated", 0x2008a2, [.Sel]⟩,
  ⟨chars "GPSSelectionModeManualInput", chars "sensors.GPSSelectionModeManualInput", 0x2008a3, [.Sel]⟩]

/-- `hrdc/usage/arcade.py:3-29`. -/
def arcade : List Row := [
  ⟨chars "GeneralPurposeIOCard", chars "arcade.GeneralPurposeIOCard", 0xff000001, [.CA]⟩,
  ⟨chars "CoinDoor", chars "arcade.CoinDoor", 0xff000002, [.CA]⟩,
  ⟨chars "WatchdogTimer", chars "arcade.WatchdogTimer", 0xff000003, [.CA]⟩,
  ⟨chars "GeneralPurposeAnalogInputState", chars "arcade.GeneralPurposeAnalogInputState", 0xff000030, [.DV]⟩,
  ⟨chars "GeneralPurposeDigitalInputState", chars "arcade.GeneralPurposeDigitalInputState", 0xff000031, [.DV]⟩,
  ⟨chars "GeneralPurposeOpticalInputState", chars "arcade.GeneralPurposeOpticalInputState", 0xff000032, [.DV]⟩,
  ⟨chars "GeneralPurposeDigitalOutputState", chars "arcade.GeneralPurposeDigitalOutputState", 0xff000033, [.DV]⟩,
  ⟨chars "NumberofCoinDoors", chars "arcade.NumberofCoinDoors", 0xff000034, [.DV]⟩,
  ⟨chars "CoinDrawerDropCount", chars "arcade.CoinDrawerDropCount", 0xff000035, [.DV]⟩,
  ⟨chars "CoinDrawerStart", chars "arcade.CoinDrawerStart", 0xff000036, [.OOC]⟩,
  ⟨chars "CoinDrawerService", chars "arcade.CoinDrawerService", 0xff000037, [.OOC]⟩,
  ⟨chars "CoinDrawerTilt", chars "arcade.CoinDrawerTilt", 0xff000038, [.OOC]⟩,
  ⟨chars "CoinDoorTest", chars "arcade.CoinDoorTest", 0xff000039, [.OOC]⟩,
  ⟨chars "CoinDoorLockout", chars "arcade.CoinDoorLockout", 0xff000040, [.OOC]⟩,
  ⟨chars "WatchdogTimeout", chars "arcade.WatchdogTimeout", 0xff000041, [.DV]⟩,
  ⟨chars "WatchdogAction", chars "arcade.WatchdogAction", 0xff000042, [.NAry]⟩,
  ⟨chars "WatchdogReboot", chars "arcade.WatchdogReboot", 0xff000043, [.Sel]⟩,
  ⟨chars "WatchdogRestart", chars "arcade.WatchdogRestart", 0xff000044, [.Sel]⟩,
  ⟨chars "AlarmInput", chars "arcade.AlarmInput", 0xff000045, [.DV]⟩,
  ⟨chars "CoinDoorCounter", chars "arcade.CoinDoorCounter", 0xff000046, [.OOC]⟩,
  ⟨chars "IODirectionMapping", chars "arcade.IODirectionMapping", 0xff000047, [.DV]⟩,
  ⟨chars "SetIODirection", chars "arcade.SetIODirection", 0xff000048, [.OOC]⟩,
  ⟨chars "ExtendedOpticalInputState", chars "arcade.ExtendedOpticalInputState", 0xff000049, [.DV]⟩,
  ⟨chars "PinPadInputState", chars "arcade.PinPadInputState", 0xff00004a, [.DV]⟩,
  ⟨chars "PinPadStatus", chars "arcade.PinPadStatus", 0xff00004b, [.DV]⟩,
  ⟨chars "PinPadOutput", chars "arcade.PinPadOutput", 0xff00004c, [.OOC]⟩,
  ⟨chars "PinPadCommand", chars "arcade.PinPadCommand", 0xff00004d, [.DV]⟩]

/-- The modules `from hrdc.usage import *` binds, `hrdc/usage/__init__.py:1-19`, in the order they are
imported; `button` and `ordinal` have no constants. -/
def modules : List (Text × List Row) := [
  (chars "pid", pid), (chars "keyboard", keyboard), (chars "desktop", desktop), (chars "telephony", telephony), (chars "consumer", consumer), (chars "simulation", simulation), (chars "led", led), (chars "vr", vr), (chars "game", game), (chars "camera", camera), (chars "device", device), (chars "digitizers", digitizers), (chars "lighting", lighting), (chars "sensors", sensors)]

/-- `module.attr`. -/
def lookup (m a : Text) : Option UsageC :=
  match modules.find? (fun p => p.1 == m) with
  | none => none
  | some p => (p.2.find? (fun r => r.attr == a)).map Row.usage

/-- Constants registered in order of import, `hrdc/usage/__init__.py:3-19`, `button.py:7-8`,
`ordinal.py:6-7`. -/
def registered : List UsageC :=
  (List.range 128).map (fun (n : Nat) => Button n) ++
  (pid ++ keyboard ++ desktop ++ telephony ++ consumer).map Row.usage ++
  (List.range 128).map (fun (n : Nat) => Ordinal n) ++
  (simulation ++ led ++ vr ++ game ++ camera ++ device ++ digitizers ++ lighting ++ sensors).map Row.usage

/-- `Usage.reverse` once `hrdc.usage` is imported. -/
def registry : Registry := registered.reverse

end UsageTable
end Hrdc
