"""usage: mut.py file.json ; list of {file, old, new, defn, edit, claim}"""
import json,sys,subprocess,re,shutil,os,pathlib
SRC='/verif/lean'; DST='/tmp/mut/lean'
os.makedirs(DST,exist_ok=True)
subprocess.run(['rsync','-a','--delete',SRC+'/',DST+'/'],check=False) if shutil.which('rsync') else subprocess.run(f'rm -rf {DST}; cp -a {SRC} {DST}',shell=True)
def decls():
    out=[]
    for f in sorted(pathlib.Path(DST,'Verif').rglob('*.lean')):
        lines=f.read_text().split('\n'); cur=None;cl=0
        for i,l in enumerate(lines,1):
            m=re.match(r'(?:@\[[^\]]*\] )?(?:private )?(?:theorem|def|lemma|example|instance|structure|inductive|abbrev)\s*([\w\.\']*)',l)
            if m:
                if cur is not None: out.append((str(f.relative_to(DST)),cur,cl,i-1,'\n'.join(lines[cl-1:i-1])))
                cur=m.group(1) or 'example'; cl=i
        if cur is not None: out.append((str(f.relative_to(DST)),cur,cl,len(lines),'\n'.join(lines[cl-1:])))
    return out
muts=json.load(open(sys.argv[1]))
logf='/verif/seeded/LOG.jsonl'
os.makedirs('/verif/seeded',exist_ok=True)
for m in muts:
    p=pathlib.Path(DST,m['file']); orig=p.read_text()
    if orig.count(m['old'])<1: print('NOT FOUND',m['defn'],m['edit']); continue
    if m.get('defn_anchor'):
        i=orig.index(m['defn_anchor']); j=orig.index(m['old'],i); new=orig[:j]+m['new']+orig[j+len(m['old']):]
    else:
        if orig.count(m['old'])>1: print('AMBIGUOUS',m['defn'],m['edit'],orig.count(m['old'])); continue
        new=orig.replace(m['old'],m['new'])
    p.write_text(new)
    ds=decls()
    r=subprocess.run(['lake','build'],cwd=DST,capture_output=True,text=True)
    failing=[]; 
    for mm in re.finditer(r'error: (Verif/[\w/]+\.lean):(\d+):',r.stdout+r.stderr):
        f,l=mm.group(1),int(mm.group(2))
        for d in ds:
            if d[0]==f and d[2]<=l<=d[3]:
                if d[1] not in failing: failing.append(d[1])
    # closure
    direct=[x for x in failing]
    modfail=any('Model' in mm.group(1) or 'Spec' in mm.group(1) for mm in re.finditer(r'error: (Verif/[\w/]+\.lean):(\d+):',r.stdout+r.stderr))
    broken=set(x for x in failing if x!='example'); ch=True
    while ch:
        ch=False
        for d in ds:
            if d[1] in broken or d[1]=='example' or d[0].endswith('Model.lean'): continue
            if any(re.search(r'(?<![\w\.])'+re.escape(b)+r'(?![\w])',d[4]) for b in broken):
                broken.add(d[1]); ch=True
    props=sorted(x for x in broken if re.match(r'C\d+_',x))
    print('==',m['defn'],'|',m['edit'],'| direct:',direct,'| props:',props,'MODELFAIL' if modfail else '', '' if r.returncode else 'SURVIVED')
    if '--log' in sys.argv and not modfail:
        with open(logf,'a') as fh:
            fh.write(json.dumps({"definition":m['defn'],"file":m['file'],"edit":m['edit'],"claim_broken":m['claim'],"theorems_failed":props or direct,"failed_directly":direct,"survived":r.returncode==0,"theorems_tightened":m.get('tightened',[])},ensure_ascii=False)+'\n')
    p.write_text(orig)
