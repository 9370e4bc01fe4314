import Verif.Spec.Wire
import Lean.Elab.Term
/-!
# The numbers HID gives to usages, independent of the tables of the code

After the HID Usage Tables (HUT): a page lists its usages in runs of consecutive numbers, so a table
is the first number of each run and the names that follow one another.  Names are spelt as the
attributes of the modules are.  Usages of HUT for which the modules have no name are left out.  The
tables are written from knowledge of HUT, not from a copy of it.
-/
namespace Hrdc.Spec
namespace Hut

set_option maxRecDepth 40000

open Lean Elab Term in
/-- `words "ab c"` is the list of the texts `ab` and `c`. -/
elab "words " s:str : term => return toExpr ((s.getString.splitOn " ").map String.toList)

/-- The Generic Desktop page (0x01). -/
def desktopPage : List (Nat × List Text) := [
  (0x01, words "Pointer Mouse"),
  (0x04, words "Joystick Gamepad Keyboard Keypad MultiAxisCtrl TabletPCSystem"),
  (0x0C, words "WirelessRadioControls PortableDeviceControl"),
  (0x30, words "X Y Z Rx Ry Rz Slider Dial Wheel HatSwitch CountedBuffer ByteCount MotionWakeup Start Select"),
  (0x40, words "Vx Vy Vz Vbrx Vbry Vbrz Vno FeatureNotification ResolutionMultiplier"),
  (0x80, words "SysControl SysPowerDown SysSleep SysWakeUp SysContextMenu SysMainMenu SysAppMenu SysMenuHelp" ++
    words "SysMenuExit SysMenuSelect SysMenuRight SysMenuLeft SysMenuUp SysMenuDown SysColdRestart" ++
    words "SysWarmRestart DPadUp DPadDown DPadRight DPadLeft"),
  (0xA0, words "SysDock SysUndock SysSetup SysBreak SysDbgrBreak AppBreak AppDbgrBreak SysSpeakerMute" ++
    words "SysHibernate"),
  (0xB0, words "SysDsplInvert SysDsplInternal SysDsplExternal SysDsplBoth SysDsplDual SysDsplToggleIntExt" ++
    words "SysDsplSwap12 SysDsplLcdAutoscale"),
  (0xC6, words "WirelessRadioButton WirelessRadioLed WirelessRadioSliderSwitch SystemDisplayRotationLockButton" ++
    words "SystemDisplayRotationLockSliderSwitch ControlEnable")]

/-- The Simulation Controls page (0x02). -/
def simulationPage : List (Nat × List Text) := [
  (0x01, words "FlightSimulationDevice AutomobileSimulationDevice TankSimulationDevice" ++
    words "SpaceshipSimulationDevice SubmarineSimulationDevice SailingSimulationDevice" ++
    words "MotorcycleSimulationDevice SportsSimulationDevice AirplaneSimulationDevice" ++
    words "HelicopterSimulationDevice MagicCarpetSimulationDevice BicycleSimulationDevice"),
  (0x20, words "FlightControlStick FlightStick CyclicControl CyclicTrim FlightYoke TrackControl"),
  (0xB0, words "Aileron AileronTrim AntiTorqueControl AutopilotEnable ChaffRelease CollectiveControl DiveBrake" ++
    words "ElectronicCountermeasures Elevator ElevatorTrim Rudder Throttle FlightCommunications" ++
    words "FlareRelease LandingGear ToeBrake Trigger WeaponsArm WeaponsSelect WingFlaps Accelerator Brake" ++
    words "Clutch Shifter Steering TurretDirection BarrelElevation DivePlane Ballast BicycleCrank" ++
    words "HandleBars FrontBrake RearBrake")]

/-- The VR Controls page (0x03). -/
def vrPage : List (Nat × List Text) := [
  (0x01, words "Belt BodySuit Flexor Glove HeadTracker HeadMountedDisplay HandTracker Oculometer Vest" ++
    words "AnimatronicDevice"),
  (0x20, words "StereoEnable DisplayEnable")]

/-- The Game Controls page (0x05). -/
def gamePage : List (Nat × List Text) := [
  (0x01, words "ThreeDGameController PinballDevice GunDevice"),
  (0x20, words "PointofView TurnRightLeft PitchForwardBackward RollRightLeft MoveRightLeft MoveForwardBackward" ++
    words "MoveUpDown LeanRightLeft LeanForwardBackward HeightofPOV Flipper SecondaryFlipper Bump NewGame" ++
    words "ShootBall Player GunBolt GunClip GunSelector GunSingleShot GunBurst GunAutomatic GunSafety" ++
    words "GamepadFireJump"),
  (0x39, words "GamepadTrigger")]

/-- The Generic Device Controls page (0x06). -/
def devicePage : List (Nat × List Text) := [
  (0x20, words "BatteryStrength WirelessChannel WirelessID DiscoverWirelessControl SecurityCodeCharacterEntered" ++
    words "SecurityCodeCharacterErased SecurityCodeCleared")]

/-- The Keyboard/Keypad page (0x07). -/
def keyboardPage : List (Nat × List Text) := [
  (0x00, words "NoEvent Rollover Postfail Undefined A B C D E F G H I J K L M N O P Q R S T U V W X Y Z" ++
    words "OneAndExclam TwoAndAt ThreeAndNumber FourAndDollar FiveAndPercent SixAndCaret SevenAndAmp" ++
    words "EightAndStar NineAndLeftParen ZeroAndRightParen ReturnEnter Escape DeleteBackspace Tab Spacebar" ++
    words "MinusAndUnderscore EqualAndPlus LeftBoxAndLeftCurly RightBoxAndRightCurly BackslashAndPipe" ++
    words "NonUsNumberAndTilde SemicolonAndColon QuotAndDoubleQuot GraveAccentAndTilde CommaAndLt" ++
    words "PeriodAndGt SlashAndQuestion CapsLock F1 F2 F3 F4 F5 F6 F7 F8 F9 F10 F11 F12 PrintScreen" ++
    words "ScrollLock Pause Insert Home Pageup DeleteForward End Pagedown Rightarrow Leftarrow Downarrow" ++
    words "Uparrow KeypadNumLockAndClear KeypadSlash KeypadStar KeypadMinus KeypadPlus KeypadEnter" ++
    words "Keypad1AndEnd Keypad2AndDownArrow Keypad3AndPagedn Keypad4AndLeftArrow Keypad5" ++
    words "Keypad6AndRightArrow Keypad7AndHome Keypad8AndUpArrow Keypad9AndPageup Keypad0AndInsert" ++
    words "KeypadPointAndDelete NonUsBackslashAndPipe Application Power KeypadEqual F13 F14 F15 F16 F17" ++
    words "F18 F19 F20 F21 F22 F23 F24 Execute Help Menu Select Stop Again Undo Cut Copy Paste Find Mute" ++
    words "VolumeUp VolumeDown LockingCapsLock LockingNumLock LockingScrollLock KeypadComma" ++
    words "KeypadEqualAs400 International1 International2 International3 International4 International5" ++
    words "International6 International7 International8 International9 Lang1 Lang2 Lang3 Lang4 Lang5 Lang6" ++
    words "Lang7 Lang8 Lang9 AlternateErase SysreqAttn Cancel Clear Prior Return Separator Out Oper" ++
    words "ClearAgain CrselProps Exsel"),
  (0xB0, words "Keypad00 Keypad000 ThousandsSeparator DecimalSeparator CurrencyUnit CurrencySubMinusUnit" ++
    words "KeypadLeftParen KeypadRightParen KeypadLeftCurly KeypadRightCurly KeypadTab KeypadBackspace" ++
    words "KeypadA KeypadB KeypadC KeypadD KeypadE KeypadF KeypadXor KeypadCaret KeypadPercent KeypadLt" ++
    words "KeypadGt KeypadAmp KeypadAmpAmp KeypadPipe KeypadPipePipe KeypadColon KeypadNumber KeypadSpace" ++
    words "KeypadAt KeypadExclam KeypadMemoryStore KeypadMemoryRecall KeypadMemoryClear KeypadMemoryAdd" ++
    words "KeypadMemorySubtract KeypadMemoryMultiply KeypadMemoryDivide KeypadPlusMinus KeypadClear" ++
    words "KeypadClearEntry KeypadBinary KeypadOctal KeypadDecimal KeypadHexadecimal"),
  (0xE0, words "LeftControl LeftShift LeftAlt LeftGui RightControl RightShift RightAlt RightGui")]

/-- The LED page (0x08). -/
def ledPage : List (Nat × List Text) := [
  (0x01, words "NumLock CapsLock ScrollLock Compose Kana Power Shift DoNotDisturb Mute ToneEnable HighCutFilter" ++
    words "LowCutFilter EqualizerEnable SoundFieldOn SurroundOn Repeat Stereo SamplingRateDetect Spinning" ++
    words "CAV CLV RecordingFormatDetect OffHook Ring MessageWaiting DataMode BatteryOperation BatteryOK" ++
    words "BatteryLow Speaker HeadSet Hold Microphone Coverage NightMode SendCalls CallPickup Conference" ++
    words "StandBy CameraOn CameraOff OnLine OffLine Busy Ready PaperOut PaperJam Remote Forward Reverse" ++
    words "Stop Rewind FastForward Play Pause Record Error UsageSelectedIndicator UsageInUseIndicator" ++
    words "UsageMultiModeIndicator IndicatorOn IndicatorFlash IndicatorSlowBlink IndicatorFastBlink" ++
    words "IndicatorOff FlashOnTime SlowBlinkOnTime SlowBlinkOffTime FastBlinkOnTime FastBlinkOffTime" ++
    words "UsageIndicatorColor IndicatorRed"),
  (0x4A, words "IndicatorAmber"),
  (0x4C, words "SystemSuspend ExternalPowerConnected"),
  (0x60, words "PlayerIndicator Player1 Player2 Player3 Player4 Player5 Player6 Player7 Player8")]

/-- The Telephony Device page (0x0B). -/
def telephonyPage : List (Nat × List Text) := [
  (0x01, words "Phone AnsweringMachine MessageControls Handset Headset TelephonyKeyPad ProgrammableButton"),
  (0x20, words "HookSwitch Flash Feature Hold Redial Transfer Drop Park ForwardCalls AlternateFunction Line" ++
    words "SpeakerPhone Conference RingEnable RingSelect PhoneMute CallerID"),
  (0x50, words "SpeedDial StoreNumber RecallNumber PhoneDirectory"),
  (0x70, words "VoiceMail ScreenCalls DoNotDisturb Message AnswerOnOff"),
  (0x90, words "InsideDialTone OutsideDialTone InsideRingTone OutsideRingTone PriorityRingTone InsideRingback" ++
    words "PriorityRingback LineBusyTone ReorderTone CallWaitingTone ConfirmationTone1 ConfirmationTone2" ++
    words "TonesOff OutsideRingback Ringer"),
  (0xB0, words "PhoneKey0 PhoneKey1 PhoneKey2 PhoneKey3 PhoneKey4 PhoneKey5 PhoneKey6 PhoneKey7 PhoneKey8" ++
    words "PhoneKey9 PhoneKeyStar PhoneKeyPound PhoneKeyA PhoneKeyB PhoneKeyC PhoneKeyD")]

/-- The Consumer page (0x0C). -/
def consumerPage : List (Nat × List Text) := [
  (0x01, words "ConsumerControl NumericKeyPad ProgrammableButtons Microphone Headphone GraphicEqualizer"),
  (0x20, words "Plus10 Plus100 AmPm"),
  (0x30, words "Power Reset Sleep SleepAfter SleepMode Illumination FunctionButtons"),
  (0x40, words "Menu MenuPick MenuUp MenuDown MenuLeft MenuRight MenuEscape MenuValueIncrease MenuValueDecrease"),
  (0x60, words "DataOnScreen ClosedCaption ClosedCaptionSelect VcrTv BroadcastMode Snapshot Still PipToggle" ++
    words "PipSwap Red Green Blue Yellow Aspect ThreeDMode DisplayBrightnessIncrement" ++
    words "DisplayBrightnessDecrement DisplayBrightness DisplayBacklightToggle" ++
    words "DisplaySetBrightnesstoMinimum DisplaySetBrightnesstoMaximum DisplaySetAutoBrightness"),
  (0x80, words "Selection AssignSelection ModeStep RecallLast EnterChannel OrderMovie Channel MediaSelection" ++
    words "MediaSelectComputer MediaSelectTv MediaSelectWww MediaSelectDvd MediaSelectTelephone" ++
    words "MediaSelectProgramGuide MediaSelectVideoPhone MediaSelectGames MediaSelectMessages" ++
    words "MediaSelectCd MediaSelectVcr MediaSelectTuner Quit Help MediaSelectTape MediaSelectCable" ++
    words "MediaSelectSatellite MediaSelectSecurity MediaSelectHome MediaSelectCall ChannelIncrement" ++
    words "ChannelDecrement MediaSelectSap"),
  (0xA0, words "VcrPlus Once Daily Weekly Monthly"),
  (0xB0, words "Play Pause Record FastForward Rewind ScanNextTrack ScanPreviousTrack Stop Eject RandomPlay" ++
    words "SelectDisc EnterDisc Repeat Tracking TrackNormal SlowTracking FrameForward FrameBack Mark" ++
    words "ClearMark RepeatFromMark ReturnToMark SearchMarkForward SearchMarkBackwards CounterReset" ++
    words "ShowCounter TrackingIncrement TrackingDecrement StopEject PlayPause PlaySkip VoiceCommand"),
  (0xE0, words "Volume Balance Mute Bass Treble BassBoost SurroundMode Loudness Mpx VolumeIncrement" ++
    words "VolumeDecrement"),
  (0xF0, words "SpeedSelect PlaybackSpeed StandardPlay LongPlay ExtendedPlay Slow"),
  (0x100, words "FanEnable FanSpeed LightEnable LightIlluminationLevel ClimateControlEnable RoomTemperature" ++
    words "SecurityEnable FireAlarm PoliceAlarm Proximity Motion DuressAlarm HoldupAlarm MedicalAlarm"),
  (0x150, words "BalanceRight BalanceLeft BassIncrement BassDecrement TrebleIncrement TrebleDecrement"),
  (0x160, words "SpeakerSystem ChannelLeft ChannelRight ChannelCenter ChannelFront ChannelCenterFront" ++
    words "ChannelSide ChannelSurround ChannelLowFrequencyEnhancement ChannelTop ChannelUnknown"),
  (0x170, words "SubChannel SubChannelIncrement SubChannelDecrement AlternateAudioIncrement" ++
    words "AlternateAudioDecrement"),
  (0x180, words "ApplicationLaunchButtons AlLaunchButtonConfigurationTool AlProgrammableButtonConfiguration" ++
    words "AlConsumerControlConfiguration AlWordProcessor AlTextEditor AlSpreadsheet AlGraphicsEditor" ++
    words "AlPresentationApp AlDatabaseApp AlEmailReader AlNewsreader AlVoicemail AlContactsAddressBook" ++
    words "AlCalendarSchedule AlTaskProjectManager AlLogJournalTimecard AlCheckbookFinance AlCalculator" ++
    words "AlAVCapturePlayback AlLocalMachineBrowser AlLanWanBrowser AlInternetBrowser" ++
    words "AlRemoteNetworkingIspConnect AlNetworkConference AlNetworkChat AlTelephonyDialer AlLogon" ++
    words "AlLogoff AlLogonLogoff AlTerminalLockScreensaver AlControlPanel AlCommandLineProcessorRun" ++
    words "AlProcessTaskManager AlSelectTaskApplication AlNextTaskApplication AlPreviousTaskApplication" ++
    words "AlPreemptiveHaltTaskApplication AlIntegratedHelpCenter AlDocuments AlThesaurus AlDictionary" ++
    words "AlDesktop AlSpellCheck AlGrammarCheck AlWirelessStatus AlKeyboardLayout AlVirusProtection" ++
    words "AlEncryption AlScreenSaver AlAlarms AlClock AlFileBrowser AlPowerStatus AlImageBrowser" ++
    words "AlAudioBrowser AlMovieBrowser AlDigitalRightsManager AlDigitalWallet"),
  (0x1BC, words "AlInstantMessaging AlOemFeaturesTipsTutorialBrowser AlOemHelp AlOnlineCommunity" ++
    words "AlEntertainmentContentBrowser AlOnlineShoppingBrowser AlSmartcardInformationHelp" ++
    words "AlMarketMonitorFinanceBrowser AlCustomizedCorporateNewsBrowser AlOnlineActivityBrowser" ++
    words "AlResearchSearchBrowser AlAudioPlayer"),
  (0x200, words "GenericGuiApplicationControls AcNew AcOpen AcClose AcExit AcMaximize AcMinimize AcSave AcPrint" ++
    words "AcProperties"),
  (0x21A, words "AcUndo AcCopy AcCut AcPaste AcSelectAll AcFind AcFindAndReplace AcSearch AcGoTo AcHome AcBack" ++
    words "AcForward AcStop AcRefresh AcPreviousLink AcNextLink AcBookmarks AcHistory AcSubscriptions" ++
    words "AcZoomIn AcZoomOut AcZoom AcFullScreenView AcNormalView AcViewToggle AcScrollUp AcScrollDown" ++
    words "AcScroll AcPanLeft AcPanRight AcPan AcNewWindow AcTileHorizontally AcTileVertically AcFormat" ++
    words "AcEdit AcBold AcItalics AcUnderline AcStrikethrough AcSubscript AcSuperscript AcAllCaps" ++
    words "AcRotate AcResize AcFlipHorizontal AcFlipVertical AcMirrorHorizontal AcMirrorVertical" ++
    words "AcFontSelect AcFontColor AcFontSize AcJustifyLeft AcJustifyCenterH AcJustifyRight" ++
    words "AcJustifyBlockH AcJustifyTop AcJustifyCenterV AcJustifyBottom AcJustifyBlockV AcIndentDecrease" ++
    words "AcIndentIncrease AcNumberedList AcRestartNumbering AcBulletedList AcPromote AcDemote AcYes AcNo" ++
    words "AcCancel AcCatalog AcBuyCheckout AcAddToCart AcExpand AcExpandAll AcCollapse AcCollapseAll" ++
    words "AcPrintPreview AcPasteSpecial AcInsertMode AcDelete AcLock AcUnlock AcProtect AcUnprotect" ++
    words "AcAttachComment AcDeleteComment AcViewComment AcSelectWord AcSelectSentence AcSelectParagraph" ++
    words "AcSelectColumn AcSelectRow AcSelectTable AcSelectObject AcRedoRepeat AcSort AcSortAscending" ++
    words "AcSortDescending AcFilter AcSetClock AcViewClock AcSelectTimeZone AcEditTimeZones AcSetAlarm" ++
    words "AcClearAlarm AcSnoozeAlarm AcResetAlarm AcSynchronize AcSendReceive AcSendTo AcReply AcReplyAll" ++
    words "AcForwardMsg AcSend AcAttachFile AcUpload AcDownload AcSetBorders AcInsertRow AcInsertColumn" ++
    words "AcInsertFile AcInsertPicture AcInsertObject AcInsertSymbol AcSaveAndClose AcRename AcMerge" ++
    words "AcSplit AcDisributeHorizontally AcDistributeVertically"),
  (0x2C0, words "ExtendedKeyboardAttributesCollection KeyboardFormFactor KeyboardKeyType KeyboardPhysicalLayout" ++
    words "VendorSpecificKeyboardPhysicalLayout KeyboardIETFLanguageTagIndex" ++
    words "ImplementedKeyboardInputAssistControls KeyboardInputAssistPrevious KeyboardInputAssistNext" ++
    words "KeyboardInputAssistPreviousGroup KeyboardInputAssistNextGroup KeyboardInputAssistAccept" ++
    words "KeyboardInputAssistCancel")]

/-- The Digitizers page (0x0D). -/
def digitizersPage : List (Nat × List Text) := [
  (0x01, words "Digitizer Pen LightPen TouchScreen TouchPad WhiteBoard CoordinateMeasuringMachine" ++
    words "ThreeDDigitizer StereoPlotter ArticulatedArm Armature MultiplePointDigitizer FreeSpaceWand" ++
    words "Deviceconfiguration"),
  (0x20, words "Stylus Puck Finger Devicesettings"),
  (0x30, words "TipPressure BarrelPressure InRange Touch Untouch Tap Quality DataValid TransducerIndex" ++
    words "TabletFunctionKeys ProgramChangeKeys BatteryStrength Invert XTilt YTilt Azimuth Altitude Twist" ++
    words "TipSwitch SecondaryTipSwitch BarrelSwitch Eraser TabletPick TouchValid Width Height"),
  (0x51, words "Contactidentifier Devicemode Deviceidentifier Contactcount Contactcountmaximum"),
  (0x5A, words "SecondaryBarrelSwitch TransducerSerialNumber PreferredColor")]

/-- The Physical Input Device page (0x0F). -/
def pidPage : List (Nat × List Text) := [
  (0x01, words "PhysicalInterfaceDevice"),
  (0x20, words "Normal SetEffectReport EffectBlockIndex ParameterBlockOffset ROMFlag EffectType ETConstantForce" ++
    words "ETRamp ETCustomForceData"),
  (0x30, words "ETSquare ETSine ETTriangle ETSawtoothUp ETSawtoothDown"),
  (0x40, words "ETSpring ETDamper ETInertia ETFriction"),
  (0x50, words "Duration SamplePeriod Gain TriggerButton TriggerRepeatInterval AxesEnable DirectionEnable" ++
    words "Direction TypeSpecificBlockOffset BlockType SetEnvelopeReport AttackLevel AttackTime FadeLevel" ++
    words "FadeTime SetConditionReport CPOffset PositiveCoefficient NegativeCoefficient PositiveSaturation" ++
    words "NegativeSaturation DeadBand DownloadForceSample IsochCustomForceEnable CustomForceDataReport" ++
    words "CustomForceData CustomForceVendorDefinedData SetCustomForceReport CustomForceDataOffset" ++
    words "SampleCount SetPeriodicReport Offset Magnitude Phase Period SetConstantForceReport" ++
    words "SetRampForceReport RampStart RampEnd EffectOperationReport EffectOperation OpEffectStart" ++
    words "OpEffectStartSolo OpEffectStop LoopCount DeviceGainReport DeviceGain PoolReport RAMPoolSize" ++
    words "ROMPoolSize ROMEffectBlockCount SimultaneousEffectsMax PoolAlignment PoolMoveReport MoveSource" ++
    words "MoveDestination MoveLength BlockLoadReport"),
  (0x8B, words "BlockLoadStatus BlockLoadSuccess BlockLoadFull BlockLoadError BlockHandle BlockFreeReport" ++
    words "TypeSpecificBlockHandle StateReport"),
  (0x94, words "EffectPlaying DeviceControlReport DeviceControl DCEnableActuators DCDisableActuators" ++
    words "DCStopAllEffects DCDeviceReset DCDevicePause DCDeviceContinue"),
  (0x9F, words "DevicePaused ActuatorsEnabled"),
  (0xA4, words "SafetySwitch ActuatorOverrideSwitch ActuatorPower StartDelay ParameterBlockSize" ++
    words "DeviceManagedPool SharedParameterBlocks CreateNewEffectReport RAMPoolAvailable")]

/-- The Sensors page (0x20). -/
def sensorsPage : List (Nat × List Text) := [
  (0x01, words "Sensor"),
  (0x10, words "Biometric BiometricHumanPresence BiometricHumanProximity BiometricHumanTouch"),
  (0x20, words "Electrical ElectricalCapacitance ElectricalCurrent ElectricalPower ElectricalInductance" ++
    words "ElectricalResistance ElectricalVoltage ElectricalPotentiometer ElectricalFrequency" ++
    words "ElectricalPeriod"),
  (0x30, words "Environmental EnvironmentalAtmosphericPressure EnvironmentalHumidity EnvironmentalTemperature" ++
    words "EnvironmentalWindDirection EnvironmentalWindSpeed"),
  (0x40, words "Light LightAmbientLight LightConsumerInfrared"),
  (0x50, words "Location LocationBroadcast LocationDeadReckoning LocationGPS LocationLookup LocationOther" ++
    words "LocationStatic LocationTriangulation"),
  (0x60, words "Mechanical MechanicalBooleanSwitch MechanicalBooleanSwitchArray MechanicalMultivalueSwitch" ++
    words "MechanicalForce MechanicalPressure MechanicalStrain MechanicalWeight MechanicalHapticVibrator" ++
    words "MechanicalHallEffectSwitch"),
  (0x70, words "Motion MotionAccelerometer1D MotionAccelerometer2D MotionAccelerometer3D MotionGyrometer1D" ++
    words "MotionGyrometer2D MotionGyrometer3D MotionMotionDetector MotionSpeedometer MotionAccelerometer" ++
    words "MotionGyrometer"),
  (0x80, words "Orientation OrientationCompass1D OrientationCompass2D OrientationCompass3D" ++
    words "OrientationInclinometer1D OrientationInclinometer2D OrientationInclinometer3D" ++
    words "OrientationDistance1D OrientationDistance2D OrientationDistance3D OrientationDeviceOrientation" ++
    words "OrientationCompass OrientationInclinometer OrientationDistance"),
  (0x90, words "Scanner ScannerBarcode ScannerRFID ScannerNFC"),
  (0xA0, words "Time TimeAlarmTimer TimeRealTimeClock"),
  (0xE0, words "Other OtherCustom OtherGeneric OtherGenericEnumerator"),
  (0x200, words "Event EventSensorState EventSensorEvent"),
  (0x300, words "Property PropertyFriendlyName PropertyPersistentUniqueID PropertySensorStatus" ++
    words "PropertyMinimumReportInterval PropertySensorManufacturer PropertySensorModel" ++
    words "PropertySensorSerialNumber PropertySensorDescription PropertySensorConnectionType" ++
    words "PropertySensorDevicePath PropertyHardwareRevision PropertyFirmwareVersion PropertyReleaseDate" ++
    words "PropertyReportInterval PropertyChangeSensitivityAbsolute" ++
    words "PropertyChangeSensitivityPercentofRange PropertyChangeSensitivityPercentRelative" ++
    words "PropertyAccuracy PropertyResolution PropertyMaximum PropertyMinimum PropertyReportingState" ++
    words "PropertySamplingRate PropertyResponseCurve PropertyPowerState"),
  (0x400, words "DataFieldLocation DataFieldLocationReserved DataFieldAltitudeAntennaSeaLevel" ++
    words "DataFieldDifferentialReferenceStationID DataFieldAltitudeEllipsoidError" ++
    words "DataFieldAltitudeEllipsoid DataFieldAltitudeSeaLevelError DataFieldAltitudeSeaLevel" ++
    words "DataFieldDifferentialGPSDataAge DataFieldErrorRadius DataFieldFixQuality DataFieldFixType" ++
    words "DataFieldGeoidalSeparation DataFieldGPSOperationMode DataFieldGPSSelectionMode"),
  (0x800, words "SensorStateUndefined SensorStateReady SensorStateNotAvailable SensorStateNoData" ++
    words "SensorStateInitializing SensorStateAccessDenied SensorStateError"),
  (0x810, words "SensorEventUnknown SensorEventStateChanged SensorEventPropertyChanged SensorEventDataUpdated" ++
    words "SensorEventPollResponse SensorEventChangeSensitivity SensorEventRangeMaximumReached" ++
    words "SensorEventRangeMinimumReached SensorEventHighThresholdCrossUpward" ++
    words "SensorEventHighThresholdCrossDownward SensorEventLowThresholdCrossUpward" ++
    words "SensorEventLowThresholdCrossDownward SensorEventZeroThresholdCrossUpward" ++
    words "SensorEventZeroThresholdCrossDownward SensorEventPeriodExceeded SensorEventFrequencyExceeded" ++
    words "SensorEventComplexTrigger"),
  (0x830, words "ConnectionTypePCIntegrated ConnectionTypePCAttached ConnectionTypePCExternal"),
  (0x840, words "ReportingStateReportNoEvents ReportingStateReportAllEvents ReportingStateReportThresholdEvents" ++
    words "ReportingStateWakeOnNoEvents ReportingStateWakeOnAllEvents ReportingStateWakeOnThresholdEvents"),
  (0x850, words "PowerStateUndefined PowerStateD0FullPower PowerStateD1LowPower" ++
    words "PowerStateD2StandbyPowerwithWakeup PowerStateD3SleepwithWakeup PowerStateD4PowerOff"),
  (0x870, words "FixQualityNoFix FixQualityGPS FixQualityDGPS"),
  (0x880, words "FixTypeNoFix FixTypeGPSSPSModeFixValid FixTypeDGPSSPSModeFixValid FixTypeGPSPPSModeFixValid" ++
    words "FixTypeRealTimeKinematic FixTypeFloatRTK FixTypeEstimated FixTypeManualInputMode" ++
    words "FixTypeSimulatorMode"),
  (0x890, words "GPSOperationModeManual GPSOperationModeAutomatic"),
  (0x8A0, words "GPSSelectionModeAutonomous GPSSelectionModeDGPS GPSSelectionModeEstimated" ++
    words "GPSSelectionModeManualInput")]

/-- The Lighting And Illumination page (0x59). -/
def lightingPage : List (Nat × List Text) := [
  (0x01, words "LampArray LampArrayAttributesReport LampCount BoundingBoxWidthInMicrometers" ++
    words "BoundingBoxHeightInMicrometers BoundingBoxDepthInMicrometers LampArrayKind" ++
    words "MinUpdateIntervalInMicroseconds"),
  (0x20, words "LampAttributesRequestReport LampId LampAttributesResponseReport PositionXInMicrometers" ++
    words "PositionYInMicrometers PositionZInMicrometers LampPurposes UpdateLatencyInMicroseconds" ++
    words "RedLevelCount GreenLevelCount BlueLevelCount IntensityLevelCount IsProgrammable InputBinding"),
  (0x50, words "LampMultiUpdateReport RedUpdateChannel GreenUpdateChannel BlueUpdateChannel" ++
    words "IntensityUpdateChannel LampUpdateFlags"),
  (0x60, words "LampRangeUpdateReport LampIdStart LampIdEnd"),
  (0x70, words "LampArrayControlReport AutonomousMode")]

/-- The Camera Control page (0x90). -/
def cameraPage : List (Nat × List Text) := [
  (0x20, words "Autofocus Shutter")]

/-- The Arcade page (0x91). -/
def arcadePage : List (Nat × List Text) := [
  (0x01, words "GeneralPurposeIOCard CoinDoor WatchdogTimer"),
  (0x30, words "GeneralPurposeAnalogInputState GeneralPurposeDigitalInputState GeneralPurposeOpticalInputState" ++
    words "GeneralPurposeDigitalOutputState NumberofCoinDoors CoinDrawerDropCount CoinDrawerStart CoinDrawerService" ++
    words "CoinDrawerTilt CoinDoorTest"),
  (0x40, words "CoinDoorLockout WatchdogTimeout WatchdogAction WatchdogReboot WatchdogRestart AlarmInput CoinDoorCounter" ++
    words "IODirectionMapping SetIODirection ExtendedOpticalInputState PinPadInputState PinPadStatus PinPadOutput" ++
    words "PinPadCommand")]

/-- The pages, by the name of the module that stands for them. -/
def pages : List (Text × Nat × List (Nat × List Text)) := [
  (tx "desktop", 0x01, desktopPage),
  (tx "simulation", 0x02, simulationPage),
  (tx "vr", 0x03, vrPage),
  (tx "game", 0x05, gamePage),
  (tx "device", 0x06, devicePage),
  (tx "keyboard", 0x07, keyboardPage),
  (tx "led", 0x08, ledPage),
  (tx "telephony", 0x0B, telephonyPage),
  (tx "consumer", 0x0C, consumerPage),
  (tx "digitizers", 0x0D, digitizersPage),
  (tx "pid", 0x0F, pidPage),
  (tx "sensors", 0x20, sensorsPage),
  (tx "lighting", 0x59, lightingPage),
  (tx "camera", 0x90, cameraPage)]

/-- The number of a name in the runs of a page. -/
def within (a : Text) : List (Nat × List Text) → Option Nat
  | [] => none
  | r :: l =>
    match r.2.findIdx? (· == a) with
    | some i => some (r.1 + i)
    | none => within a l

/-- The number of a usage, with its page in the upper 16 bits. -/
def number (m a : Text) : Option Nat :=
  match pages.find? (fun p => p.1 == m) with
  | none => none
  | some p => (within a p.2.2).map (p.2.1 * 65536 + ·)

/-- The usages of type Named Array. -/
def namedArrays : List (Text × List Text) := [
  (tx "game", words "GunSelector"),
  (tx "led", words "PlayerIndicator"),
  (tx "telephony", words "TelephonyKeyPad ProgrammableButton"),
  (tx "consumer", words "NumericKeyPad ProgrammableButtons FunctionButtons Selection MediaSelection SelectDisc PlaybackSpeed" ++
    words "ApplicationLaunchButtons GenericGuiApplicationControls"),
  (tx "pid", words "EffectType BlockType EffectOperation BlockLoadStatus DeviceControl"),
  (tx "sensors", words "EventSensorState EventSensorEvent PropertySensorConnectionType PropertyReportingState" ++
    words "PropertyPowerState DataFieldFixQuality DataFieldFixType DataFieldGPSOperationMode DataFieldGPSSelectionMode")]

/-- A usage of type Named Array. -/
def isNamedArray (m a : Text) : Bool :=
  match namedArrays.find? (fun p => p.1 == m) with
  | none => false
  | some p => p.2.contains a

end Hut
end Hrdc.Spec
