#!/usr/bin/env python3
"""Check the Lean model against the expected vectors of traquer's own test-suite.

    python3 gen.py gen   > /tmp/w/Val.lean     # translate the calls found in /repo/tests
    (cd /verif/lean && lake env lean --run /tmp/w/Val.lean) > /tmp/w/val.out
    python3 gen.py cmp   < /tmp/w/val.out

The generated file instantiates the model's `FloatOps` class with Lean's `Float` (IEEE binary64 in
hardware) and runs the model on the inputs of the tests.  This is a sanity check of the model, not
part of any proof.
"""
import re, sys, json, struct, math, glob
T='/repo/tests/'
MODS={'smooth':'Smooth','momentum':'Momentum','volatility':'Volatility','trend':'Trend','volume':'Volume','correlation':'Correlation'}
STAT={'kurtosis':'Distribution','skew':'Distribution','variance':'Distribution','std_dev':'Distribution','zscore':'Distribution','mad':'Distribution','cv':'Distribution','quantile':'Distribution','median':'Distribution','rank':'Distribution','approx_entropy':'Distribution','sample_entropy':'Distribution'}
for f in 'mse rmse mae mape smape mda mase emae'.split(): STAT[f]='Regression'
PURE={'mse','rmse','mae','mape','smape','mase','emae','kernel','decay','rsc','wcp','bw_mfi','pvi','nvi'}
ENV={'x':'((List.range 41).map fun i => Float.ofNat i - 20)','ln_ret1':'(lnret D1.close)','ln_ret2':'(lnret D2.close)','rets':'(ret D1.close)','c_win':'3','b_win':'7','lead_win':'13','lag_win':'7','y.len()':'y.length'}

def balanced(s,i):
    d=0
    for j in range(i,len(s)):
        if s[j] in '([{': d+=1
        if s[j] in ')]}':
            d-=1
            if d==0: return j
    raise ValueError
def split(a):
    out=[];d=0;cur=''
    for ch in a:
        if ch in '([{<' : d+=1
        if ch in ')]}>' : d-=1
        if ch==',' and d==0: out.append(cur.strip());cur=''
        else: cur+=ch
    if cur.strip(): out.append(cur.strip())
    return out
def num(x):
    x=x.strip().rstrip('.')
    return '('+x+')' if x.startswith('-') else x
def lit(a):
    return '['+', '.join(num(x) for x in split(a))+']'
def arg(a):
    b=re.sub(r'\s+','',a)
    if b=='None': return 'none'
    m=re.fullmatch(r'Some\((.*)\)',b)
    if m: return '(some '+arg(m.group(1))+')'
    m=re.fullmatch(r'&?stats(2?)\.(\w+)',b)
    if m: return 'D%s.%s'%(m.group(1) or '1',m.group(2))
    if b in('true','false'): return b
    if re.fullmatch(r'-?[0-9._]+',b): return num(b)
    m=re.fullmatch(r'&?\[(.*)\]',b)
    if m: return lit(m.group(1))
    m=re.fullmatch(r'&?stats\.close\.iter\(\)\.zip\(&stats\.close\[1\.\.\]\)\.map.*ln.*',b)
    if m: return '(lnret D1.close)'
    if b.lstrip('&') in ENV: return ENV[b.lstrip('&')]
    m=re.fullmatch(r'(?:smooth::)?MaMode::(\w+)',b)
    if m: return '.'+m.group(1)
    m=re.fullmatch(r'RankMode::(\w+)',b)
    if m: return '.'+m.group(1).lower()
    return '?'+b
def tests():
    for f in sorted(glob.glob(T+'*_test.rs')):
        s=open(f).read()
        for m in re.finditer(r'fn (test_\w+)\(\) \{',s):
            body=s[m.end()-1:balanced(s,m.end()-1)+1]
            yield f.split('/')[-1],m.group(1),body
def calls(f,body):
    res=[]
    if 'stat_' in f: pat=r'(?<![\w.:])('+'|'.join(STAT)+r')\('
    else: pat=r'(?:'+'|'.join(MODS)+r')::([a-z_0-9]+)\('
    for m in re.finditer(pat,body):
        j=balanced(body,m.end()-1)
        name=m.group(1)
        mod=STAT[name] if 'stat_' in f else MODS[re.match(r'\w+',m.group(0)).group(0)]
        res.append((mod,name,[arg(a) for a in split(body[m.end():j])],m.start(),j))
    return res
def litvecs(body):
    """named let-bound literals and the other literal vectors"""
    named={};vecs=[]
    for m in re.finditer(r'\[',body):
        j=balanced(body,m.start())
        c=re.sub(r'f64::NAN','nan',re.sub(r'//.*','',body[m.start()+1:j]))
        c2=re.sub(r',+',',',re.sub(r'[()\s]','',c)).strip(',')
        if not re.fullmatch(r'(?:-?[0-9._eE-]+|nan)(?:,(?:-?[0-9._eE-]+|nan))*',c2 or 'x') : continue
        if '..' in c2: continue
        vals=c2.split(',')
        pre=body[:m.start()]
        n=re.search(r'let (?:mut )?(\w+)(?:: [^=]*)? = (?:&|vec!)?$',pre)
        if n and n.group(1)!='expected': named[n.group(1)]=vals; continue
        if len(vals)<2 and not 'vec!' in pre[-6:] : continue
        vecs.append((m.start(),[float(v) for v in vals],'(' in c))
    return named,vecs
def gen():
    print(r'''import Verif
open Traquer
namespace Val
def pInf : Float := 1.0/0.0
def roundTrunc (x : Float) : Float := if x < 0 then x.ceil else x.floor
instance : FloatOps Float where
  nan := 0.0/0.0
  ofNat := Float.ofNat
  ofSci := fun m s e => OfScientific.ofScientific m s e
  pi := 3.14159265358979323846
  maxValue := Float.ofBits 0x7fefffffffffffff
  minPositive := Float.ofBits 0x0010000000000000
  epsilon := Float.ofBits 0x3cb0000000000000
  abs := Float.abs
  sqrt := Float.sqrt
  exp := Float.exp
  ln := Float.log
  log10 := Float.log10
  log2 := Float.log2
  cos := Float.cos
  atan := Float.atan
  floor := Float.floor
  ceil := Float.ceil
  fract := fun x => x - roundTrunc x
  signum := fun x => if x.isNaN then x else if x.toBits >>> 63 == 1 then -1 else 1
  powf := Float.pow
  lt := fun x y => x < y
  le := fun x y => x <= y
  feq := fun x y => x == y
  isNaN := Float.isNaN
  toUsize := fun x => x.toUInt64.toNat
class Flat (α : Type) where flat : α → List Float
instance : Flat Float := ⟨fun x => [x]⟩
instance {α β} [Flat α] [Flat β] : Flat (α × β) := ⟨fun p => Flat.flat p.1 ++ Flat.flat p.2⟩
def pr {α} [Flat α] (tag : String) (r : Option (List α)) : IO Unit := do
  match r with
  | none => IO.println s!"{tag} PANIC"
  | some l => IO.println (tag ++ " " ++ " ".intercalate (l.map fun x => ",".intercalate ((Flat.flat x).map fun y => toString y.toBits)))
def lnret (l : List Float) : List Float := (pairs l).map fun (a, b) => (b / a).log
def ret (l : List Float) : List Float := (pairs l).map fun (a, b) => b / a - 1
def insertBy (l : List Float) (i : Nat) : List Nat → List Nat
  | [] => [i]
  | j :: r => if l[i]! < l[j]! then i :: j :: r else j :: insertBy l i r
def srt : Distribution.Sorter Float := ⟨fun l => (List.range l.length).foldl (fun acc i => insertBy l i acc) []⟩
def ho : Correlation.HashOrder := fun _ _ _ l => l
structure D where
  high : List Float
  low : List Float
  «open» : List Float
  close : List Float
  volume : List Float''')
    for n,p in (('D1','rddt'),('D2','sp500')):
        d=json.load(open(T+p+'.input'))
        print('def %s : D := {'%n+', '.join(('«open»' if k=='open' else k)+' := ['+', '.join(repr(float(x)) for x in d[k])+']' for k in ('high','low','open','close','volume'))+'}')
    body=[];k=0
    defs=[]
    for f,t,b in tests():
        named,_=litvecs(b)
        loc={n:'%s_%s'%(t,n) for n in named}
        for n,v in named.items(): defs.append('def %s_%s : List Float := [%s]'%(t,n,', '.join(num(x) for x in v)))
        for ci,(mod,name,args,_,_) in enumerate(calls(f,b)):
            a2=[]
            for a in args:
                if a.startswith('?'):
                    v=a[1:].lstrip('&')
                    if v in loc: a=loc[v]
                a=re.sub(r'^y\.length$',loc.get('y','y')+'.length',a)
                a2.append(a.replace('.open','.«open»'))
            if any('?' in a for a in a2):
                print('skip',f,t,name,a2,file=sys.stderr); continue
            extra={'rank':['srt'],'srcc':['srt'],'hoeffd':['srt'],'mic':['ho']}.get(name,[])
            e='%s.%s (F := Float) %s'%(mod,name,' '.join(extra+a2))
            if name in PURE: e='some (%s)'%e
            if name=='frama': e='((%s).bind (fun r => r.toOption))'%e
            defs.append('def call%d : IO Unit := pr "%s:%s:%d" (%s)'%(k,f,t,ci,e)); body.append('call%d'%k); k+=1
    print('\n'.join(defs))
    print('def main : IO Unit := do\n  '+'\n  '.join(body))
    print('end Val\ndef main := Val.main')
def cmp():
    out={}
    for line in sys.stdin:
        p=line.split()
        if not p: continue
        f,t,c=p[0].split(':')
        if p[1:]==['PANIC']: out.setdefault((f,t),[]).append(None);continue
        rows=[[struct.unpack('<d',struct.pack('<Q',int(x)))[0] for x in r.split(',')] for r in p[1:]]
        out.setdefault((f,t),[]).append(rows)
    ok=close=bad=0
    def eq(x,y): return x==y or (x!=x and y!=y)
    def cl(x,y): return eq(x,y) or abs(x-y)<=1e-8*max(1,abs(x))
    for f,t,b in tests():
        res=out.get((f,t),[])
        cands=[]
        for rows in res:
            if not rows: continue
            cols=list(zip(*rows)); cands+= [list(c) for c in cols]
            if len(cols)>1: cands.append([x for r in rows for x in r])
        spans=[(s,e) for _,_,_,s,e in calls(f,b)]
        _,vecs=litvecs(b)
        vecs=[v for p,v,_ in vecs if not any(s<=p<=e for s,e in spans)]
        for m in re.finditer(r'assert(?:_eq)?!\(\(?\s*(-?[0-9.]+)(?: - |,)',b): vecs.append([float(m.group(1))])
        if not vecs: print('no vec',f,t)
        for v in vecs:
            def has(e): return any(all(e(x,y) for x,y in zip(v,c[i:i+len(v)])) for c in cands for i in range(len(c)-len(v)+1))
            if has(eq): ok+=1
            elif has(cl): close+=1; print('close',f,t)
            else: bad+=1; print('MISMATCH',f,t,v[:3],[c[-len(v):][:3] for c in cands])
    print('exact',ok,'close',close,'mismatch',bad)
if sys.argv[1]=='gen': gen()
else: cmp()
